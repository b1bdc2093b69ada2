import Verif.LqMprLemmas

/-!
C22, C23 and C51 for the link-quality MPR selection.

The specifications below speak about the neighbourhood before the selection
(`mem`, `e`) and about the flag `isMpr` after it.
-/
namespace Verif.LqMpr

/-- The two-hop neighbour is not itself a symmetric neighbour. -/
def Strict (e : Env) (mem : Nat → Nbr) (t : TwoHop) : Prop :=
  ∀ p, e.lookup t.addr = some p → (mem p).sym = false

/-- `p` is a symmetric neighbour through which `t` is reached at a cost below
`limit`. -/
def Reaches (mem : Nat → Nbr) (t : TwoHop) (limit : Nat) (p : Nat) : Prop :=
  (mem p).sym = true ∧ ∃ w ∈ t.walkers, w.nbr = p ∧ w.cost < limit

/-- Pointers in the two-hop table lead into the neighbour table, which lists no
entry twice. -/
structure Wf (e : Env) : Prop where
  nodup : e.table.Nodup
  inside : ∀ t ∈ e.twoHops, ∀ w ∈ t.walkers, w.nbr ∈ e.table

private theorem cover_enough (e : Env) (s : St) (t : TwoHop) (limit : Nat) (us : List Nat)
    (hnd : us.Nodup)
    (hus : ∀ u ∈ us, (s.mem u).sym = true ∧
      ∃ w ∈ t.walkers, w.nbr = u ∧ w.cost < linkCostBroken ∧ w.cost < limit) :
    ∃ ss : List Nat, ss.Nodup ∧ min us.length e.coverage ≤ ss.length ∧ ss.length ≤ e.coverage ∧
      ∀ p ∈ ss, ((cover e t limit s).mem p).isMpr = true ∧ (s.mem p).sym = true ∧
        ∃ w ∈ t.walkers, w.nbr = p ∧ w.cost < linkCostBroken ∧ w.cost < limit ∧
          ∀ v ∈ t.walkers, (s.mem v.nbr).sym = true → v.nbr ∉ ss → w.cost ≤ v.cost := by
  have hopen : ∀ w ∈ t.walkers, (s.mem w.nbr).sym = true → Open (clearSkip s t.walkers) w := by
    intro w hw hs
    refine ⟨?_, ?_⟩
    · rw [(clearSkip_grows s t.walkers).sym]; exact hs
    · rw [clearSkip_mem, if_pos ⟨w, hw, rfl⟩]
  obtain ⟨ss, s1, s2, s3, s4⟩ := coverLoop_enough e.coverage t.walkers limit
    (clearSkip s t.walkers) us hnd (by
      intro u hu
      obtain ⟨h1, w, hw, h2, h3, h4⟩ := hus u hu
      exact ⟨w, hw, h2, hopen w hw (h2 ▸ h1), h3, h4⟩)
  refine ⟨ss, s1, s2, s3, ?_⟩
  intro p hp
  obtain ⟨m, w, hw, h1, h2, h3, h4, h5⟩ := s4 p hp
  refine ⟨m, ?_, w, hw, h1, h3, h4, fun v hv hvs hvn => h5 v hv (hopen v hv hvs) hvn⟩
  have := h2.1
  rw [(clearSkip_grows s t.walkers).sym, h1] at this
  exact this

private theorem split_fold (e : Env) (mem : Nat → Nbr) (hnd : e.table.Nodup) (t : TwoHop)
    (ht : t ∈ e.twoHops) :
    ∃ s : St, (∀ q, (s.mem q).sym = (mem q).sym) ∧
      Grows (oneTwoHop e s t) (calculate e mem) := by
  obtain ⟨a, b, hab⟩ := List.append_of_mem ht
  refine ⟨a.foldl (oneTwoHop e) (e.table.foldl always1 ⟨mem, false⟩), ?_, ?_⟩
  · intro q
    rw [(fold_grows e a _).sym, (pass1_grows e hnd mem q).1]
  · unfold calculate
    rw [hab, List.foldl_append, List.foldl_cons]
    exact fold_grows e b _

/-- C22.  A two-hop neighbour that is not a symmetric neighbour and is reached
through the distinct usable neighbours `us` is adjacent to at least
`min (length us) coverage` selected relays. -/
theorem C22_coverage (e : Env) (mem : Nat → Nbr) (hwf : Wf e) (t : TwoHop) (ht : t ∈ e.twoHops)
    (hstrict : Strict e mem t) (us : List Nat) (hnd : us.Nodup)
    (hus : ∀ u ∈ us, Reaches mem t linkCostBroken u) :
    ∃ ss : List Nat, ss.Nodup ∧ min us.length e.coverage ≤ ss.length ∧
      ∀ p ∈ ss, ((calculate e mem).mem p).isMpr = true ∧ Reaches mem t linkCostBroken p := by
  obtain ⟨s, hs, hg⟩ := split_fold e mem hwf.nodup t ht
  have hone : oneTwoHop e s t = cover e t linkCostBroken s := by
    unfold oneTwoHop
    split
    · rfl
    · next p hp => rw [if_neg]; rw [hs, hstrict p hp]; simp
  obtain ⟨ss, s1, s2, _, s4⟩ := cover_enough e s t linkCostBroken us hnd (by
    intro u hu
    obtain ⟨h1, w, hw, h2, h3⟩ := hus u hu
    exact ⟨by rw [hs]; exact h1, w, hw, h2, h3, h3⟩)
  refine ⟨ss, s1, s2, ?_⟩
  intro p hp
  obtain ⟨m, h1, w, hw, h2, h3, _⟩ := s4 p hp
  refine ⟨hg.mpr p (hone ▸ m), ?_, w, hw, h2, h3⟩
  rw [← hs]; exact h1

/-- C22, the choice: the relays that cover a two-hop neighbour are the cheapest
ones.  A usable neighbour left out costs at least as much as each of them. -/
theorem C22_cheapest (e : Env) (mem : Nat → Nbr) (hwf : Wf e) (t : TwoHop) (ht : t ∈ e.twoHops)
    (hstrict : Strict e mem t) (us : List Nat) (hnd : us.Nodup)
    (hus : ∀ u ∈ us, Reaches mem t linkCostBroken u) :
    ∃ ss : List Nat, ss.Nodup ∧ min us.length e.coverage ≤ ss.length ∧ ss.length ≤ e.coverage ∧
      ∀ p ∈ ss, ((calculate e mem).mem p).isMpr = true ∧
        ∃ c, Reaches mem t (c + 1) p ∧ c < linkCostBroken ∧
          ∀ q, q ∉ ss → ¬ Reaches mem t c q := by
  obtain ⟨s, hs, hg⟩ := split_fold e mem hwf.nodup t ht
  have hone : oneTwoHop e s t = cover e t linkCostBroken s := by
    unfold oneTwoHop
    split
    · rfl
    · next p hp => rw [if_neg]; rw [hs, hstrict p hp]; simp
  obtain ⟨ss, s1, s2, s3, s4⟩ := cover_enough e s t linkCostBroken us hnd (by
    intro u hu
    obtain ⟨h1, w, hw, h2, h3⟩ := hus u hu
    exact ⟨by rw [hs]; exact h1, w, hw, h2, h3, h3⟩)
  refine ⟨ss, s1, s2, s3, ?_⟩
  intro p hp
  obtain ⟨m, h1, w, hw, h2, h3, _, h5⟩ := s4 p hp
  refine ⟨hg.mpr p (hone ▸ m), w.cost, ⟨?_, w, hw, h2, Nat.lt_succ_self _⟩, h3, ?_⟩
  · rw [← hs]; exact h1
  · rintro q hq ⟨hqs, v, hv, hvq, hvc⟩
    have := h5 v hv (by rw [hs, hvq]; exact hqs) (by rw [hvq]; exact hq)
    omega

/-- C22 for a two-hop neighbour that is a symmetric neighbour as well: the
neighbours that offer a path cheaper than the direct link (cost `direct`) cover
it in the same way. -/
theorem C22_detour (e : Env) (mem : Nat → Nbr) (hwf : Wf e) (t : TwoHop) (ht : t ∈ e.twoHops)
    (p1 direct : Nat) (hlk : e.lookup t.addr = some p1) (hsym : (mem p1).sym = true)
    (hdirect : e.bestLink p1 = some direct) (us : List Nat) (hnd : us.Nodup)
    (hus : ∀ u ∈ us, Reaches mem t (min direct linkCostBroken) u) :
    ∃ ss : List Nat, ss.Nodup ∧ min us.length e.coverage ≤ ss.length ∧
      ∀ p ∈ ss, ((calculate e mem).mem p).isMpr = true ∧
        Reaches mem t (min direct linkCostBroken) p := by
  by_cases hus0 : us = []
  · subst hus0
    exact ⟨[], List.nodup_nil, by simp, by simp⟩
  obtain ⟨s, hs, hg⟩ := split_fold e mem hwf.nodup t ht
  have hone : oneTwoHop e s t = cover e t direct s := by
    unfold oneTwoHop
    rw [hlk]
    simp only
    rw [if_pos (by rw [hs]; exact hsym), hdirect]
    simp only
    rw [if_pos]
    obtain ⟨u, hu⟩ := List.exists_mem_of_ne_nil us hus0
    obtain ⟨_, w, hw, _, hc⟩ := hus u hu
    exact List.any_eq_true.2 ⟨w, hw, by simp; omega⟩
  obtain ⟨ss, s1, s2, _, s4⟩ := cover_enough e s t direct us hnd (by
    intro u hu
    obtain ⟨h1, w, hw, h2, h3⟩ := hus u hu
    exact ⟨by rw [hs]; exact h1, w, hw, h2, by omega, by omega⟩)
  refine ⟨ss, s1, s2, ?_⟩
  intro p hp
  obtain ⟨m, h1, w, hw, h2, h3, h4, _⟩ := s4 p hp
  refine ⟨hg.mpr p (hone ▸ m), ?_, w, hw, h2, by omega⟩
  rw [← hs]; exact h1

/-- The reason for which a neighbour may be a relay: it always wants to be one,
or some two-hop neighbour is reached through it and fewer than `coverage`
symmetric neighbours reach that two-hop neighbour at a lower cost. -/
def Needed (e : Env) (mem : Nat → Nbr) (p : Nat) : Prop :=
  (mem p).will = willAlways ∨
  ∃ t ∈ e.twoHops, ∃ c, Reaches mem t (c + 1) p ∧ c < linkCostBroken ∧
    ∀ us : List Nat, us.Nodup → (∀ u ∈ us, Reaches mem t c u) → us.length < e.coverage

private theorem oneTwoHop_needed (e : Env) (mem : Nat → Nbr) (s : St)
    (hs : ∀ q, (s.mem q).sym = (mem q).sym) (t : TwoHop) (ht : t ∈ e.twoHops) (q : Nat)
    (h1 : ((oneTwoHop e s t).mem q).isMpr = true) (h2 : (s.mem q).isMpr = false) :
    (mem q).sym = true ∧ Needed e mem q := by
  have hc : ∀ limit, ((cover e t limit s).mem q).isMpr = true →
      (mem q).sym = true ∧ Needed e mem q := by
    intro limit h
    have h3 : ((clearSkip s t.walkers).mem q).isMpr = false := by
      rw [clearSkip_mem]; split <;> exact h2
    obtain ⟨w, hw, hwq, hwo, hw1, _, hw3⟩ := coverLoop_needed _ _ _ _ q h h3
    have hsq : (mem q).sym = true := by
      have := hwo.1
      rw [(clearSkip_grows s t.walkers).sym, hwq, hs] at this
      exact this
    refine ⟨hsq, Or.inr ⟨t, ht, w.cost, ⟨hsq, w, hw, hwq, Nat.lt_succ_self _⟩, hw1, ?_⟩⟩
    intro us hnd hus
    apply hw3 us hnd
    intro u hu
    obtain ⟨a, v, hv, hvu, hvc⟩ := hus u hu
    refine ⟨v, hv, hvu, ⟨?_, ?_⟩, hvc⟩
    · rw [(clearSkip_grows s t.walkers).sym, hvu, hs]; exact a
    · rw [clearSkip_mem, if_pos ⟨v, hv, rfl⟩]
  have hno : ((s.mem q).isMpr = true) → (mem q).sym = true ∧ Needed e mem q := by
    intro h; rw [h2] at h; cases h
  unfold oneTwoHop at h1
  split at h1
  · exact hc _ h1
  · split at h1
    · split at h1
      · exact hno h1
      · split at h1
        · exact hc _ h1
        · exact hno h1
    · exact hc _ h1

private theorem fold_needed (e : Env) (mem : Nat → Nbr) : ∀ (ts : List TwoHop) (s : St),
    (∀ t ∈ ts, t ∈ e.twoHops) → (∀ q, (s.mem q).sym = (mem q).sym) →
    ∀ q, ((ts.foldl (oneTwoHop e) s).mem q).isMpr = true → (s.mem q).isMpr = false →
      (mem q).sym = true ∧ Needed e mem q := by
  intro ts
  induction ts with
  | nil => intro s _ _ q h1 h2; rw [List.foldl_nil, h2] at h1; cases h1
  | cons t ts ih =>
    intro s hin hs q h1 h2
    by_cases h3 : ((oneTwoHop e s t).mem q).isMpr = true
    · exact oneTwoHop_needed e mem s hs t (hin t (by simp)) q h3 h2
    · refine ih (oneTwoHop e s t) (fun t' ht' => hin t' (List.mem_cons_of_mem _ ht')) ?_ q h1
        (by simpa using h3)
      intro q; rw [(oneTwoHop_grows e s t).sym, hs]

private theorem selected (e : Env) (mem : Nat → Nbr) (hnd : e.table.Nodup) (p : Nat)
    (hp : p ∈ e.table) (h : ((calculate e mem).mem p).isMpr = true) :
    (mem p).sym = true ∧ Needed e mem p := by
  by_cases h0 : ((e.table.foldl always1 ⟨mem, false⟩).mem p).isMpr = true
  · rw [pass1_mem _ hnd, if_pos hp] at h0
    simp only [Bool.and_eq_true, decide_eq_true_eq] at h0
    exact ⟨h0.1, Or.inl h0.2⟩
  · exact fold_needed e mem e.twoHops _ (fun _ h => h) (fun q => (pass1_grows e hnd mem q).1) p h
      (by simpa using h0)

/-- C22, frugality: no neighbour becomes a relay without need. -/
theorem C22_only_needed (e : Env) (mem : Nat → Nbr) (hwf : Wf e) (p : Nat) (hp : p ∈ e.table)
    (h : ((calculate e mem).mem p).isMpr = true) : Needed e mem p :=
  (selected e mem hwf.nodup p hp h).2

/-- C23, the half that holds of the link-quality selection: a selected relay is
a symmetric neighbour.  Missing from the property: that its willingness is not
`WILL_NEVER`; see `C23_lq_never_selected`. -/
theorem C23_lq_symmetric_partial (e : Env) (mem : Nat → Nbr) (hwf : Wf e) (p : Nat)
    (hp : p ∈ e.table) (h : ((calculate e mem).mem p).isMpr = true) : (mem p).sym = true :=
  (selected e mem hwf.nodup p hp h).1

/-- C23, the first rule: a symmetric neighbour that always wants to be a relay
is one. -/
theorem C23_lq_always_selected (e : Env) (mem : Nat → Nbr) (hwf : Wf e) (p : Nat)
    (hp : p ∈ e.table) (hs : (mem p).sym = true) (hw : (mem p).will = willAlways) :
    ((calculate e mem).mem p).isMpr = true := by
  apply (fold_grows e e.twoHops _).mpr
  rw [pass1_mem _ hwf.nodup, if_pos hp]
  simp [hs, hw]

/-- A small neighbourhood: two symmetric neighbours 1 and 2 and a neighbour 3
that is not symmetric, all with the given willingness; two-hop neighbours 10
(through 1 at cost 300, through 2 at cost 200, through 3 at cost 100) and 11
(through 1). -/
def demo (coverage : Nat) : Env where
  table := [1, 2, 3]
  twoHops := [⟨10, [⟨1, 300⟩, ⟨2, 200⟩, ⟨3, 100⟩]⟩, ⟨11, [⟨1, 500⟩]⟩]
  lookup := fun _ => none
  bestLink := fun _ => none
  coverage := coverage

/-- The neighbour memory of `demo`. -/
def demoMem (will : Nat) : Nat → Nbr := fun p =>
  ⟨decide (p = 1 ∨ p = 2), will, false, false, false⟩

theorem demo_wf (c : Nat) : Wf (demo c) := by
  constructor
  · show [1, 2, 3].Nodup; decide
  · intro t ht w hw
    show w.nbr ∈ [1, 2, 3]
    simp only [demo, List.mem_cons, List.not_mem_nil, or_false] at ht
    rcases ht with rfl | rfl
    · simp only [List.mem_cons, List.not_mem_nil, or_false] at hw
      rcases hw with rfl | rfl | rfl <;> simp
    · simp only [List.mem_cons, List.not_mem_nil, or_false] at hw
      subst hw; simp

/-- C23 is false of the link-quality selection: the willingness is not looked
at.  A symmetric neighbour that announced `WILL_NEVER` after its two-hop
neighbours were learnt is selected. -/
theorem C23_lq_never_selected :
    ∃ (e : Env) (mem : Nat → Nbr) (p : Nat), Wf e ∧ p ∈ e.table ∧
      (mem p).will = willNever ∧ ((calculate e mem).mem p).isMpr = true :=
  ⟨demo 1, demoMem willNever, 1, demo_wf 1, by simp [demo], rfl, by decide⟩

/-- C51, the half that holds of the link-quality selection: link changes are
signalled exactly when a neighbour is a relay now that was none before.
Missing from the property: neighbours that stop being a relay; see
`C51_lq_loss_not_signalled`. -/
theorem C51_lq_gain_signalled_partial (e : Env) (mem : Nat → Nbr) (hwf : Wf e) (red : Nat)
    (hred : 0 < red) :
    signals e mem red = true ↔
      ∃ p ∈ e.table, (mem p).isMpr = false ∧ ((calculate e mem).mem p).isMpr = true := by
  have h0 : Told e.table (e.table.foldl always1 ⟨mem, false⟩) := by
    unfold Told
    rw [pass1_changes _ hwf.nodup]
    constructor
    · rintro (h | ⟨q, hq, h1, h2, h3⟩)
      · cases h
      · refine ⟨q, hq, ?_⟩
        simp only [] at h1 h2 h3
        rw [pass1_mem _ hwf.nodup, if_pos hq]
        simp [h1, h2, h3]
    · rintro ⟨q, hq, h⟩
      rw [pass1_mem _ hwf.nodup, if_pos hq] at h
      simp only [Bool.and_eq_true, decide_eq_true_eq] at h
      exact Or.inr ⟨q, hq, h.1.1, h.1.2, h.2⟩
  have h1 : Told e.table (calculate e mem) := fold_told e e.twoHops _ hwf.inside h0
  have hwas : ∀ q ∈ e.table, ((calculate e mem).mem q).wasMpr = (mem q).isMpr := by
    intro q hq
    unfold calculate
    rw [(fold_grows e e.twoHops _).was, pass1_mem _ hwf.nodup, if_pos hq]
  have h2 : signals e mem red = (calculate e mem).changes := by
    simp [signals, hred]
  rw [h2]
  unfold Told at h1
  rw [h1]
  constructor
  · rintro ⟨q, hq, a, b⟩
    exact ⟨q, hq, by rw [← hwas q hq]; exact b, a⟩
  · rintro ⟨q, hq, a, b⟩
    exact ⟨q, hq, b, by rw [hwas q hq]; exact a⟩

/-- C51 is false of the link-quality selection: neighbour 1 was a relay and is
none after the selection, and nothing is signalled. -/
theorem C51_lq_loss_not_signalled :
    ∃ (e : Env) (mem : Nat → Nbr) (p : Nat), Wf e ∧ p ∈ e.table ∧
      (mem p).isMpr = true ∧ ((calculate e mem).mem p).isMpr = false ∧
      signals e mem 1 = false :=
  ⟨⟨[1], [], fun _ => none, fun _ => none, 1⟩, fun _ => ⟨true, 3, true, false, false⟩, 1,
    ⟨by simp, by simp⟩, by simp, rfl, by decide, by decide⟩

/-! ### Examples: the hypotheses can be met -/

/-- The neighbours of `demo 2` that are selected. -/
example : ([1, 2, 3].map fun p => ((calculate (demo 2) (demoMem 3)).mem p).isMpr)
    = [true, true, false] := by decide

/-- With coverage 1 and without the two-hop neighbour 11, only the cheapest
symmetric neighbour is selected. -/
example : ([1, 2, 3].map fun p =>
    ((calculate { demo 1 with twoHops := [⟨10, [⟨1, 300⟩, ⟨2, 200⟩, ⟨3, 100⟩]⟩] } (demoMem 3)).mem p).isMpr)
    = [false, true, false] := by decide

example : Strict (demo 2) (demoMem 3) ⟨10, [⟨1, 300⟩, ⟨2, 200⟩, ⟨3, 100⟩]⟩ ∧
    ∀ u ∈ [1, 2], Reaches (demoMem 3) ⟨10, [⟨1, 300⟩, ⟨2, 200⟩, ⟨3, 100⟩]⟩ linkCostBroken u := by
  refine ⟨by intro p h; simp [demo] at h, ?_⟩
  intro u hu
  simp only [List.mem_cons, List.not_mem_nil, or_false] at hu
  rcases hu with rfl | rfl
  · exact ⟨rfl, ⟨1, 300⟩, by simp, rfl, by decide⟩
  · exact ⟨rfl, ⟨2, 200⟩, by simp, rfl, by decide⟩

/-- A two-hop neighbour that is also the direct neighbour 2 with a link of cost
900: the detour through 1 at cost 300 is preferred and makes 1 a relay. -/
example :
    let e : Env := ⟨[1, 2], [⟨20, [⟨1, 300⟩]⟩], fun a => if a = 20 then some 2 else none,
      fun _ => some 900, 1⟩
    ([1, 2].map fun p => ((calculate e (demoMem 3)).mem p).isMpr) = [true, false] := by decide

end Verif.LqMpr
