import Verif.PudStateModel

/-!
# C142: the movement state follows the observations with hysteresis

The specification looks at the observations only: the visible state of a source becomes `v` when its last `k` observations
(at least one) all say `v`, where `k` is the threshold for `v`, or when the source of information changed; otherwise
it stays.  The node is moving if one of the sources visibly is.
-/

namespace Verif.PudState

/-- What an observation says. -/
def says (o : Tri × Bool) : Mv := if o.1 = .set ∨ o.2 = true then .moving else .stationary

/-- The number of observations it takes. -/
def need (toStat toMov : Nat) : Mv → Nat
  | .stationary => max 1 toStat
  | .moving => max 1 toMov

/-- The visible state of a source after the observations, the newest first. -/
def visible (start : Mv) (toStat toMov : Nat) : List (Tri × Bool) → Mv
  | [] => start
  | o :: os =>
    if o.2 = true ∨
        (need toStat toMov (says o) ≤ (o :: os).length ∧
          ∀ x ∈ (o :: os).take (need toStat toMov (says o)), says x = says o)
    then says o else visible start toStat toMov os

/-- The observations of one source, the newest first. -/
def obs (i : Idx) (cs : List Call) : List (Tri × Bool) := ((cs.filter (fun c => c.1 = i)).map (·.2)).reverse

/-- The length of the last run of observations that say `v`. -/
private def runLen (v : Mv) (os : List (Tri × Bool)) : Nat := (os.takeWhile (fun x => says x = v)).length

private theorem le_takeWhile {α : Type} (p : α → Bool) : ∀ (l : List α) (k : Nat),
    k ≤ (l.takeWhile p).length ↔ k ≤ l.length ∧ ∀ x ∈ l.take k, p x = true
  | _, 0 => by simp
  | [], k + 1 => by simp
  | a :: l, k + 1 => by
    have ih := le_takeWhile p l k
    cases ha : p a with
    | false => simp [ha]
    | true =>
      simp only [List.takeWhile_cons, ha, if_true, List.length_cons, List.take_succ_cons, List.mem_cons,
        forall_eq_or_imp, true_and, Nat.add_le_add_iff_right]
      exact ih

private theorem visible_cons (start : Mv) (ts tm : Nat) (o : Tri × Bool) (os : List (Tri × Bool)) :
    visible start ts tm (o :: os) =
      if o.2 = true ∨ need ts tm (says o) ≤ runLen (says o) (o :: os) then says o else visible start ts tm os := by
  have h : (need ts tm (says o) ≤ runLen (says o) (o :: os)) ↔
      (need ts tm (says o) ≤ (o :: os).length ∧ ∀ x ∈ (o :: os).take (need ts tm (says o)), says x = says o) := by
    have := le_takeWhile (fun x => decide (says x = says o)) (o :: os) (need ts tm (says o))
    unfold runLen
    simpa only [decide_eq_true_eq] using this
  conv => lhs; unfold visible
  by_cases hc : o.2 = true ∨ need ts tm (says o) ≤ runLen (says o) (o :: os)
  · rw [if_pos hc, if_pos (by rw [← h]; exact hc)]
  · rw [if_neg hc, if_neg (by rw [← h]; exact hc)]

/-- What the last observation said. -/
def last (start : Mv) : List (Tri × Bool) → Mv
  | [] => start
  | o :: _ => says o

/-- A sub-state and the observations of its source. -/
private structure Inv (start : Mv) (ts tm : Nat) (s : Sub) (os : List (Tri × Bool)) : Prop where
  eqS : s.toStationary = ts
  eqM : s.toMoving = tm
  ext : s.external = visible start ts tm os
  int : s.internal = last start os
  cnt : s.internal ≠ s.external → s.counter = runLen s.internal os ∧ s.counter < need ts tm s.internal

private theorem newInternal_says (t : Tri) (g : Bool) : newInternal t g = says (t, g) := by
  unfold newInternal says
  by_cases h : t = .set ∨ g = true
  · rw [if_pos h, if_pos h]
  · rw [if_neg h, if_neg h]
    by_cases h2 : t = .unset
    · rw [if_pos h2]
    · rw [if_neg h2]

private theorem runLen_cons_same (o : Tri × Bool) (os : List (Tri × Bool)) :
    runLen (says o) (o :: os) = runLen (says o) os + 1 := by
  unfold runLen
  rw [List.takeWhile_cons, if_pos (by simp)]
  rfl

private theorem runLen_other (v : Mv) (o : Tri × Bool) (os : List (Tri × Bool)) (h : says o ≠ v) :
    runLen v (o :: os) = 0 := by
  unfold runLen
  rw [List.takeWhile_cons, if_neg (by simpa using h)]
  rfl

private theorem step_count {start : Mv} {ts tm : Nat} {s : Sub} {os : List (Tri × Bool)}
    (h : Inv start ts tm s os) (hts : ts < 2 ^ 64) (htm : tm < 2 ^ 64) (o : Tri × Bool)
    (hne : says o ≠ s.external) :
    ((setInternal s (says o)).counter + 1) % 2 ^ 64 = runLen (says o) (o :: os) := by
  rw [runLen_cons_same]
  unfold setInternal
  simp only []
  by_cases hi : s.internal = says o
  · rw [if_neg (by simpa using hi)]
    have hc := h.cnt (by rw [hi]; exact hne)
    rw [← hi, ← hc.1]
    have hlt : need ts tm s.internal < 2 ^ 64 + 1 := by
      cases s.internal <;> simp only [need] <;> omega
    have hn : need ts tm s.internal ≤ 2 ^ 64 - 1 := by
      cases s.internal <;> simp only [need] <;> omega
    exact Nat.mod_eq_of_lt (by omega)
  · rw [if_pos (by simpa using hi)]
    have h0 : runLen (says o) os = 0 := by
      cases os with
      | nil => rfl
      | cons a as => exact runLen_other _ _ _ (fun e => hi (h.int.trans e))
    rw [h0]

private theorem step_inv {start : Mv} {ts tm : Nat} {s : Sub} {os : List (Tri × Bool)}
    (h : Inv start ts tm s os) (hts : ts < 2 ^ 64) (htm : tm < 2 ^ 64) (o : Tri × Bool) :
    Inv start ts tm (subStep s o.1 o.2) (o :: os) := by
  unfold subStep
  rw [newInternal_says]
  obtain ⟨s', hs'⟩ : ∃ s', s' = setInternal s (says o) := ⟨_, rfl⟩
  have e1 : s'.internal = says o := by rw [hs']; rfl
  have e2 : s'.external = s.external := by rw [hs']; rfl
  have e3 : s'.toStationary = ts := by rw [hs']; exact h.eqS
  have e4 : s'.toMoving = tm := by rw [hs']; exact h.eqM
  by_cases hne : says o = s.external
  · have hh : hysteresis s' o.2 = s' := by
      unfold hysteresis; rw [if_neg (by rw [e1, e2]; simpa using hne)]
    rw [← hs', hh]
    refine ⟨e3, e4, ?_, e1, fun hx => absurd (by rw [e1, e2]; exact hne) hx⟩
    rw [visible_cons, e2, ← h.ext, hne]
    split <;> rfl
  · have hc := step_count h hts htm o hne
    rw [← hs'] at hc
    rw [← hs']
    unfold hysteresis
    rw [if_pos (by rw [e1, e2]; exact hne), e1]
    obtain ⟨r, hr⟩ : ∃ r, r = runLen (says o) (o :: os) := ⟨_, rfl⟩
    have hr1 : 1 ≤ r := by rw [hr, runLen_cons_same]; omega
    have hv := visible_cons start ts tm o os
    rw [← hr] at hv hc
    cases hw : says o with
    | stationary =>
      have hg : o.2 = false := by
        cases hg : o.2 with
        | false => rfl
        | true => unfold says at hw; rw [if_pos (Or.inr hg)] at hw; cases hw
      rw [hw, hg] at hv
      simp only []
      rw [hc, e3]
      by_cases hk : r ≥ ts
      · rw [if_pos hk]
        rw [if_pos (Or.inr (by simp only [need]; omega))] at hv
        exact ⟨rfl, e4, hv.symm, by simp only [last, hw], fun hx => absurd rfl hx⟩
      · rw [if_neg hk]
        rw [if_neg (by simp only [need]; simp; omega), ← h.ext] at hv
        refine ⟨rfl, e4, by rw [hv]; exact e2, by simp only [last, hw], fun _ => ?_⟩
        simp only []
        rw [hw] at hr
        exact ⟨hr, by simp only [need]; omega⟩
    | moving =>
      simp only []
      cases hg : o.2 with
      | true =>
        rw [if_pos rfl]
        rw [hw, hg, if_pos (Or.inl rfl)] at hv
        exact ⟨e3, e4, hv.symm, by simp only [last, hw], fun hx => absurd rfl hx⟩
      | false =>
        rw [if_neg (by simp), hc, e4]
        rw [hw, hg] at hv
        by_cases hk : r ≥ tm
        · rw [if_pos hk]
          rw [if_pos (Or.inr (by simp only [need]; omega))] at hv
          exact ⟨e3, rfl, hv.symm, by simp only [last, hw], fun hx => absurd rfl hx⟩
        · rw [if_neg hk]
          rw [if_neg (by simp only [need]; simp; omega), ← h.ext] at hv
          refine ⟨e3, rfl, by rw [hv]; exact e2, by simp only [last, hw], fun _ => ?_⟩
          simp only []
          rw [hw] at hr
          exact ⟨hr, by simp only [need]; omega⟩

/-- The overall state. -/
private def Overall (st : St) : Prop :=
  st.external = .moving ↔ st.position.external = .moving ∨ st.gateway.external = .moving

private theorem determine_sub (st : St) (i : Idx) (t : Tri) (g : Bool) :
    ∃ v, (determine st i t g).1 = { st.setSub i (subStep (st.sub i) t g) with external := v } := by
  unfold determine
  split
  · split
    · exact ⟨_, rfl⟩
    · exact ⟨st.external, by cases i <;> rfl⟩
  · exact ⟨st.external, by cases i <;> rfl⟩

private theorem determine_overall (st : St) (h : Overall st) (i : Idx) (t : Tri) (g : Bool) :
    Overall (determine st i t g).1 := by
  unfold Overall at h ⊢
  unfold determine
  generalize subStep (st.sub i) t g = s'
  obtain ⟨⟨_, _, _, _, e1⟩, ⟨_, _, _, _, e2⟩, e⟩ := st
  obtain ⟨_, _, _, _, e3⟩ := s'
  cases i <;> cases e1 <;> cases e2 <;> cases e3 <;> cases e <;> simp_all [St.sub, St.setSub, transition]

/-- The sub-states with their observations. -/
private def Both (c : Cfg) (st : St) (ps gs : List (Tri × Bool)) : Prop :=
  Inv .stationary c.posStationary c.posMoving st.position ps ∧
  Inv .moving c.gwStationary c.gwMoving st.gateway gs

/-- The thresholds are `unsigned long long`. -/
def Cfg.Ok (c : Cfg) : Prop :=
  c.posStationary < 2 ^ 64 ∧ c.posMoving < 2 ^ 64 ∧ c.gwStationary < 2 ^ 64 ∧ c.gwMoving < 2 ^ 64

instance (c : Cfg) : Decidable c.Ok := inferInstanceAs (Decidable (_ ∧ _))

private theorem init_both (c : Cfg) : Both c (init c) [] [] :=
  ⟨⟨rfl, rfl, rfl, rfl, fun h => absurd rfl h⟩, ⟨rfl, rfl, rfl, rfl, fun h => absurd rfl h⟩⟩

private theorem run_both (c : Cfg) (hc : c.Ok) : ∀ (cs : List Call) (st : St) (ps gs : List (Tri × Bool)),
    Both c st ps gs → Overall st → Both c (run st cs) (obs .position cs ++ ps) (obs .gateway cs ++ gs) ∧ Overall (run st cs)
  | [], _, _, _, h, ho => ⟨h, ho⟩
  | (i, t, g) :: cs, st, ps, gs, h, ho => by
    have ho' := determine_overall st ho i t g
    obtain ⟨v, hv⟩ := determine_sub st i t g
    cases i with
    | position =>
      have hb : Both c (determine st .position t g).1 ((t, g) :: ps) gs := by
        rw [hv]; exact ⟨step_inv h.1 hc.1 hc.2.1 (t, g), h.2⟩
      have := run_both c hc cs _ _ _ hb ho'
      have e1 : obs .position ((.position, t, g) :: cs) = obs .position cs ++ [(t, g)] := by simp [obs]
      have e2 : obs .gateway ((.position, t, g) :: cs) = obs .gateway cs := by simp [obs]
      rw [e1, e2, List.append_assoc]
      exact this
    | gateway =>
      have hb : Both c (determine st .gateway t g).1 ps ((t, g) :: gs) := by
        rw [hv]; exact ⟨h.1, step_inv h.2 hc.2.2.1 hc.2.2.2 (t, g)⟩
      have := run_both c hc cs _ _ _ hb ho'
      have e1 : obs .position ((.gateway, t, g) :: cs) = obs .position cs := by simp [obs]
      have e2 : obs .gateway ((.gateway, t, g) :: cs) = obs .gateway cs ++ [(t, g)] := by simp [obs]
      rw [e1, e2, List.append_assoc]
      exact this

private theorem run_init (c : Cfg) (hc : c.Ok) (cs : List Call) :
    Both c (run (init c) cs) (obs .position cs) (obs .gateway cs) ∧ Overall (run (init c) cs) := by
  have := run_both c hc cs (init c) [] [] (init_both c) (by simp [Overall, init])
  simpa only [List.append_nil] using this

/-- After every series of calls the state is "moving" exactly if one of the two sources visibly is, where what is
visible of a source depends on its own observations only. -/
theorem C142_external (c : Cfg) (hc : c.Ok) (cs : List Call) :
    (run (init c) cs).external = .moving ↔
      visible .stationary c.posStationary c.posMoving (obs .position cs) = .moving ∨
      visible .moving c.gwStationary c.gwMoving (obs .gateway cs) = .moving := by
  obtain ⟨⟨h1, h2⟩, h3⟩ := run_init c hc cs
  unfold Overall at h3
  rw [h3, h1.ext, h2.ext]

example : (run (init ⟨2, 2, 1, 5⟩) [(.gateway, .unset, false), (.position, .set, false), (.position, .set, false),
    (.position, .unset, false)]).external = .moving := by decide +kernel

/-- The internal state of a source is what its last observation said. -/
theorem C142_internal (c : Cfg) (hc : c.Ok) (cs : List Call) :
    (run (init c) cs).position.internal = last .stationary (obs .position cs) ∧
    (run (init c) cs).gateway.internal = last .moving (obs .gateway cs) :=
  ⟨(run_init c hc cs).1.1.int, (run_init c hc cs).1.2.int⟩

example : (run (init ⟨2, 2, 1, 5⟩) [(.position, .set, false)]).position.internal = .moving := by decide +kernel

/-- A call gives back the state afterwards and whether it changed, for the node and for the source; and it leaves
the other source alone. -/
theorem C142_result (st : St) (i j : Idx) (t : Tri) (g : Bool) :
    (determine st i t g).2.external = (determine st i t g).1.external ∧
    ((determine st i t g).2.change = true ↔ (determine st i t g).1.external ≠ st.external) ∧
    ((determine st i t g).2.subChange = true ↔
      ((determine st i t g).1.sub i).external ≠ (st.sub i).external) ∧
    (j ≠ i → (determine st i t g).1.sub j = st.sub j) := by
  unfold determine
  generalize subStep (st.sub i) t g = s'
  obtain ⟨⟨_, _, _, _, e1⟩, ⟨_, _, _, _, e2⟩, e⟩ := st
  obtain ⟨_, _, _, _, e3⟩ := s'
  cases i <;> cases j <;> cases e1 <;> cases e2 <;> cases e3 <;> cases e <;> simp [St.sub, St.setSub, transition]

example : (determine (init ⟨1, 1, 1, 1⟩) .gateway .unset false).2 = ⟨.stationary, true, true⟩ := by decide +kernel

/-- A change of the source of information makes the node "moving" at once. -/
theorem C142_changed (c : Cfg) (hc : c.Ok) (cs : List Call) (i : Idx) (t : Tri) :
    (run (init c) (cs ++ [(i, t, true)])).external = .moving := by
  rw [C142_external c hc]
  cases i with
  | position =>
    left
    have : obs .position (cs ++ [(.position, t, true)]) = (t, true) :: obs .position cs := by simp [obs]
    rw [this]; unfold visible; rw [if_pos (Or.inl rfl)]; simp [says]
  | gateway =>
    right
    have : obs .gateway (cs ++ [(.gateway, t, true)]) = (t, true) :: obs .gateway cs := by simp [obs]
    rw [this]; unfold visible; rw [if_pos (Or.inl rfl)]; simp [says]

example : (run (init ⟨1, 9, 1, 1⟩) [(.gateway, .unset, false), (.position, .unset, true)]).external = .moving := by
  decide +kernel

private theorem visible_settles (start : Mv) (ts tm : Nat) (os : List (Tri × Bool))
    (hl : max 1 ts ≤ os.length) (h : ∀ o ∈ os.take (max 1 ts), says o = .stationary) :
    visible start ts tm os = .stationary := by
  cases os with
  | nil => simp at hl
  | cons o os =>
    have ho : says o = .stationary := by
      apply h
      obtain ⟨k, hk⟩ : ∃ k, max 1 ts = k + 1 := ⟨max 1 ts - 1, by omega⟩
      rw [hk, List.take_succ_cons]; exact List.mem_cons_self
    unfold visible
    rw [ho]
    exact if_pos (Or.inr ⟨hl, h⟩)

/-- The node is "stationary" as soon as both sources have said so as often as their thresholds ask for (at least once). -/
theorem C142_settles (c : Cfg) (hc : c.Ok) (cs : List Call)
    (hp : max 1 c.posStationary ≤ (obs .position cs).length)
    (hg : max 1 c.gwStationary ≤ (obs .gateway cs).length)
    (hp' : ∀ o ∈ (obs .position cs).take (max 1 c.posStationary), says o = .stationary)
    (hg' : ∀ o ∈ (obs .gateway cs).take (max 1 c.gwStationary), says o = .stationary) :
    (run (init c) cs).external = .stationary := by
  have h := C142_external c hc cs
  rw [visible_settles _ _ _ _ hp hp', visible_settles _ _ _ _ hg hg'] at h
  cases he : (run (init c) cs).external with
  | stationary => rfl
  | moving => have := h.mp he; simp at this

example : (run (init ⟨1, 1, 2, 1⟩) [(.position, .set, false), (.gateway, .unset, false), (.position, .unset, false),
    (.gateway, .unknown, false)]).external = .stationary := by decide +kernel

end Verif.PudState
