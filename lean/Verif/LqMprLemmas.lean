import Verif.LqMprModel

/-! Helper lemmas for the link-quality MPR selection. -/
namespace Verif.LqMpr

@[simp] theorem put_same (s : St) (p : Nat) (n : Nbr) : (s.put p n).mem p = n := by
  simp [St.put]

theorem put_other (s : St) (p q : Nat) (n : Nbr) (h : q ≠ p) :
    (s.put p n).mem q = s.mem q := by
  simp [St.put, h]

theorem put_mem (s : St) (p q : Nat) (n : Nbr) :
    (s.put p n).mem q = if q = p then n else s.mem q := rfl

/-! ### mark -/

theorem mark_mem (s : St) (p q : Nat) :
    (mark s p).mem q =
      if q = p then { s.mem p with isMpr := true, skip := true } else s.mem q := by
  unfold mark
  simp only
  split <;> rfl

theorem mark_sym (s : St) (p q : Nat) : ((mark s p).mem q).sym = (s.mem q).sym := by
  rw [mark_mem]; split
  · next h => subst h; rfl
  · rfl

theorem mark_will (s : St) (p q : Nat) : ((mark s p).mem q).will = (s.mem q).will := by
  rw [mark_mem]; split
  · next h => subst h; rfl
  · rfl

theorem mark_was (s : St) (p q : Nat) : ((mark s p).mem q).wasMpr = (s.mem q).wasMpr := by
  rw [mark_mem]; split
  · next h => subst h; rfl
  · rfl

theorem mark_isMpr (s : St) (p q : Nat) :
    ((mark s p).mem q).isMpr = (decide (q = p) || (s.mem q).isMpr) := by
  rw [mark_mem]; split
  · next h => simp [h]
  · next h => simp [h]

theorem mark_skip (s : St) (p q : Nat) :
    ((mark s p).mem q).skip = (decide (q = p) || (s.mem q).skip) := by
  rw [mark_mem]; split
  · next h => simp [h]
  · next h => simp [h]

theorem mark_changes (s : St) (p : Nat) :
    (mark s p).changes = (s.changes || !(s.mem p).wasMpr) := by
  unfold mark
  simp only
  cases h : (s.mem p).wasMpr <;> simp [St.put]

/-! ### clearSkip -/

theorem clearSkip_mem (ws : List Walker) : ∀ (s : St) (q : Nat),
    (clearSkip s ws).mem q =
      if ∃ w ∈ ws, w.nbr = q then { s.mem q with skip := false } else s.mem q := by
  induction ws with
  | nil => intro s q; simp [clearSkip]
  | cons w ws ih =>
    intro s q
    show (clearSkip (s.put w.nbr { s.mem w.nbr with skip := false }) ws).mem q = _
    rw [ih, put_mem]
    by_cases h1 : q = w.nbr
    · subst h1
      simp
    · have h2 : (∃ v ∈ w :: ws, v.nbr = q) ↔ ∃ v ∈ ws, v.nbr = q := by
        constructor
        · rintro ⟨v, hv, hq⟩
          rcases List.mem_cons.1 hv with rfl | hv
          · exact absurd hq.symm h1
          · exact ⟨v, hv, hq⟩
        · rintro ⟨v, hv, hq⟩
          exact ⟨v, List.mem_cons_of_mem _ hv, hq⟩
      simp only [h1, if_false, h2]

theorem clearSkip_changes (ws : List Walker) : ∀ (s : St),
    (clearSkip s ws).changes = s.changes := by
  induction ws with
  | nil => intro s; rfl
  | cons w ws ih =>
    intro s
    show (clearSkip (s.put w.nbr _) ws).changes = _
    rw [ih]; rfl

/-! ### pick -/

/-- A walker the search may take. -/
def Open (s : St) (w : Walker) : Prop :=
  (s.mem w.nbr).sym = true ∧ (s.mem w.nbr).skip = false

/-- What the accumulator of the search satisfies. -/
def PickInv (s : St) (seen : List Walker) (a : Option Nat × Nat) : Prop :=
  (∀ w ∈ seen, Open s w → a.2 ≤ w.cost) ∧ a.2 ≤ linkCostBroken ∧
  ((a.1 = none ∧ a.2 = linkCostBroken) ∨
    (∃ p, a.1 = some p ∧ a.2 < linkCostBroken ∧ ∃ w ∈ seen, w.nbr = p ∧ w.cost = a.2 ∧ Open s w))

theorem pick_fold (s : St) : ∀ (ws seen : List Walker) (a : Option Nat × Nat),
    PickInv s seen a → PickInv s (seen ++ ws) (ws.foldl (pickStep s) a) := by
  intro ws
  induction ws with
  | nil => intro seen a h; simpa using h
  | cons w ws ih =>
    intro seen a h
    have h2 : PickInv s (seen ++ [w]) (pickStep s a w) := by
      obtain ⟨h1, h3, h4⟩ := h
      unfold pickStep
      split
      · next hc =>
        obtain ⟨c1, c2, c3⟩ := hc
        refine ⟨?_, ?_, Or.inr ⟨w.nbr, rfl, ?_, w, by simp, rfl, rfl, c1, c2⟩⟩
        · intro v hv ho
          rcases List.mem_append.1 hv with hv | hv
          · exact Nat.le_trans (Nat.le_of_lt c3) (h1 v hv ho)
          · rw [List.mem_singleton.1 hv]; exact Nat.le_refl _
        · exact Nat.le_trans (Nat.le_of_lt c3) h3
        · exact Nat.lt_of_lt_of_le c3 h3
      · next hc =>
        refine ⟨?_, h3, ?_⟩
        · intro v hv ho
          rcases List.mem_append.1 hv with hv | hv
          · exact h1 v hv ho
          · rw [List.mem_singleton.1 hv] at ho ⊢
            apply Nat.le_of_not_lt
            intro hlt
            exact hc ⟨ho.1, ho.2, hlt⟩
        · rcases h4 with h4 | ⟨p, e1, e2, v, hv, e3⟩
          · exact Or.inl h4
          · exact Or.inr ⟨p, e1, e2, v, List.mem_append_left _ hv, e3⟩
    have := ih (seen ++ [w]) _ h2
    simpa using this

theorem pick_inv (s : St) (ws : List Walker) : PickInv s ws (pick s ws) := by
  have := pick_fold s ws [] (none, linkCostBroken)
    ⟨by simp, Nat.le_refl _, Or.inl ⟨rfl, rfl⟩⟩
  simpa [pick] using this

/-! ### the loop over k -/

/-- Facts that survive every step of the second loop. -/
structure Grows (s s' : St) : Prop where
  sym : ∀ q, (s'.mem q).sym = (s.mem q).sym
  will : ∀ q, (s'.mem q).will = (s.mem q).will
  was : ∀ q, (s'.mem q).wasMpr = (s.mem q).wasMpr
  mpr : ∀ q, (s.mem q).isMpr = true → (s'.mem q).isMpr = true

theorem Grows.refl (s : St) : Grows s s := ⟨fun _ => rfl, fun _ => rfl, fun _ => rfl, fun _ h => h⟩

theorem Grows.trans {a b c : St} (h1 : Grows a b) (h2 : Grows b c) : Grows a c :=
  ⟨fun q => (h2.sym q).trans (h1.sym q), fun q => (h2.will q).trans (h1.will q),
   fun q => (h2.was q).trans (h1.was q), fun q h => h2.mpr q (h1.mpr q h)⟩

theorem mark_grows (s : St) (p : Nat) : Grows s (mark s p) :=
  ⟨mark_sym s p, mark_will s p, mark_was s p, fun q h => by rw [mark_isMpr]; simp [h]⟩

theorem coverLoop_grows : ∀ (k : Nat) (ws : List Walker) (limit : Nat) (s : St),
    Grows s (coverLoop k ws limit s) := by
  intro k
  induction k with
  | zero => intro ws limit s; exact Grows.refl s
  | succ k ih =>
    intro ws limit s
    unfold coverLoop
    split
    · split
      · exact (mark_grows _ _).trans (ih _ _ _)
      · exact Grows.refl s
    · exact Grows.refl s

theorem clearSkip_grows (s : St) (ws : List Walker) : Grows s (clearSkip s ws) := by
  refine ⟨?_, ?_, ?_, ?_⟩ <;> intro q
  · rw [clearSkip_mem]; split <;> rfl
  · rw [clearSkip_mem]; split <;> rfl
  · rw [clearSkip_mem]; split <;> rfl
  · rw [clearSkip_mem]; split <;> exact id

theorem cover_grows (e : Env) (t : TwoHop) (limit : Nat) (s : St) :
    Grows s (cover e t limit s) :=
  (clearSkip_grows _ _).trans (coverLoop_grows _ _ _ _)

theorem oneTwoHop_grows (e : Env) (s : St) (t : TwoHop) : Grows s (oneTwoHop e s t) := by
  unfold oneTwoHop
  repeat' split
  all_goals first | exact cover_grows _ _ _ _ | exact Grows.refl s

theorem fold_grows (e : Env) : ∀ (ts : List TwoHop) (s : St),
    Grows s (ts.foldl (oneTwoHop e) s) := by
  intro ts
  induction ts with
  | nil => intro s; exact Grows.refl s
  | cons t ts ih => intro s; exact (oneTwoHop_grows e s t).trans (ih _)

/-- The loop over `k` finds enough neighbours, and the cheapest ones. -/
theorem coverLoop_enough : ∀ (k : Nat) (ws : List Walker) (limit : Nat) (s : St) (us : List Nat),
    us.Nodup →
    (∀ u ∈ us, ∃ w ∈ ws, w.nbr = u ∧ Open s w ∧ w.cost < linkCostBroken ∧ w.cost < limit) →
    ∃ ss : List Nat, ss.Nodup ∧ min us.length k ≤ ss.length ∧ ss.length ≤ k ∧
      ∀ p ∈ ss, ((coverLoop k ws limit s).mem p).isMpr = true ∧
        ∃ w ∈ ws, w.nbr = p ∧ Open s w ∧ w.cost < linkCostBroken ∧ w.cost < limit ∧
          ∀ v ∈ ws, Open s v → v.nbr ∉ ss → w.cost ≤ v.cost := by
  intro k
  induction k with
  | zero =>
    intro ws limit s us _ _
    exact ⟨[], List.nodup_nil, by simp, by simp, by simp⟩
  | succ k ih =>
    intro ws limit s us hnd hus
    obtain ⟨i1, i2, i3⟩ := pick_inv s ws
    by_cases hus0 : us = []
    · subst hus0
      exact ⟨[], List.nodup_nil, by simp, by simp, by simp⟩
    obtain ⟨u0, us1, rfl⟩ : ∃ a l, us = a :: l := by
      cases us with
      | nil => exact absurd rfl hus0
      | cons a l => exact ⟨a, l, rfl⟩
    obtain ⟨w0, hw0, _, ho0, hb0, hl0⟩ := hus u0 (by simp)
    have hle := i1 w0 hw0 ho0
    rcases i3 with ⟨_, e2⟩ | ⟨p, e1, e2, w, hw, hwp, hwc, hwo⟩
    · exact absurd hb0 (by omega)
    · have hlt : (pick s ws).2 < limit := Nat.lt_of_le_of_lt hle hl0
      have hrun : coverLoop (k + 1) ws limit s = coverLoop k ws limit (mark s p) := by
        have hp : pick s ws = (some p, (pick s ws).2) := by rw [← e1]
        rw [coverLoop, hp]
        simp [hlt]
      have hnd2 : ((u0 :: us1).erase p).Nodup := hnd.erase p
      have hus2 : ∀ u ∈ (u0 :: us1).erase p, ∃ w ∈ ws, w.nbr = u ∧ Open (mark s p) w ∧
          w.cost < linkCostBroken ∧ w.cost < limit := by
        intro u hu
        have hne : u ≠ p := fun h => by
          subst h
          exact (List.Nodup.not_mem_erase hnd) hu
        obtain ⟨v, hv, hvu, hvo, hv1, hv2⟩ := hus u (List.mem_of_mem_erase hu)
        refine ⟨v, hv, hvu, ⟨?_, ?_⟩, hv1, hv2⟩
        · rw [mark_sym]; exact hvo.1
        · rw [mark_skip, hvu]; simp [hne]; rw [← hvu]; exact hvo.2
      obtain ⟨ss, s1, s2, s3, s4⟩ := ih ws limit (mark s p) _ hnd2 hus2
      have hpss : p ∉ ss := by
        intro hp
        obtain ⟨_, v, _, hvp, hvo, _⟩ := s4 p hp
        have := hvo.2
        rw [mark_skip, hvp] at this
        simp at this
      have hlen : (u0 :: us1).length ≤ ((u0 :: us1).erase p).length + 1 := by
        rw [List.length_erase]; split <;> omega
      refine ⟨p :: ss, List.nodup_cons.2 ⟨hpss, s1⟩, ?_, ?_, ?_⟩
      · simp only [List.length_cons] at hlen ⊢; omega
      · simp only [List.length_cons]; omega
      · intro q hq
        rw [hrun]
        rcases List.mem_cons.1 hq with rfl | hq
        · refine ⟨?_, w, hw, hwp, hwo, by omega, by omega, ?_⟩
          · apply (coverLoop_grows k ws limit (mark s q)).mpr
            rw [mark_isMpr]; simp
          · intro v hv hvo _
            rw [hwc]; exact i1 v hv hvo
        · obtain ⟨m1, v, hv, hvq, hvo, hv1, hv2, hv3⟩ := s4 q hq
          refine ⟨m1, v, hv, hvq, ⟨?_, ?_⟩, hv1, hv2, ?_⟩
          · rw [← mark_sym s p]; exact hvo.1
          · have := hvo.2
            rw [mark_skip] at this
            simp at this; exact this.2
          · intro x hx hxo hxn
            simp only [List.mem_cons, not_or] at hxn
            apply hv3 x hx _ hxn.2
            refine ⟨?_, ?_⟩
            · rw [mark_sym]; exact hxo.1
            · rw [mark_skip]; simp [hxn.1, hxo.2]

/-- Whoever the loop over `k` selects was open, cheap enough and among the
cheapest `k`. -/
theorem coverLoop_needed : ∀ (k : Nat) (ws : List Walker) (limit : Nat) (s : St) (q : Nat),
    ((coverLoop k ws limit s).mem q).isMpr = true → (s.mem q).isMpr = false →
    ∃ w ∈ ws, w.nbr = q ∧ Open s w ∧ w.cost < linkCostBroken ∧ w.cost < limit ∧
      ∀ us : List Nat, us.Nodup → (∀ u ∈ us, ∃ v ∈ ws, v.nbr = u ∧ Open s v ∧ v.cost < w.cost) →
        us.length < k := by
  intro k
  induction k with
  | zero =>
    intro ws limit s q h1 h2
    rw [coverLoop, h2] at h1
    exact absurd h1 (by simp)
  | succ k ih =>
    intro ws limit s q h1 h2
    obtain ⟨i1, i2, i3⟩ := pick_inv s ws
    rcases i3 with ⟨e1, _⟩ | ⟨p, e1, e2, w, hw, hwp, hwc, hwo⟩
    · have hp : pick s ws = (none, (pick s ws).2) := by rw [← e1]
      rw [coverLoop, hp] at h1
      simp [h2] at h1
    · have hp : pick s ws = (some p, (pick s ws).2) := by rw [← e1]
      rw [coverLoop, hp] at h1
      simp only at h1
      by_cases hlt : (pick s ws).2 < limit
      · rw [if_pos hlt] at h1
        by_cases hqp : q = p
        · subst hqp
          refine ⟨w, hw, hwp, hwo, by omega, by omega, ?_⟩
          intro us _ hus
          cases us with
          | nil => simp
          | cons u us =>
            obtain ⟨v, hv, _, hvo, hvc⟩ := hus u (by simp)
            have := i1 v hv hvo
            omega
        · have h3 : ((mark s p).mem q).isMpr = false := by
            rw [mark_isMpr]; simp [hqp, h2]
          obtain ⟨v, hv, hvq, hvo, hv1, hv2, hv3⟩ := ih ws limit (mark s p) q h1 h3
          refine ⟨v, hv, hvq, ⟨?_, ?_⟩, hv1, hv2, ?_⟩
          · rw [← mark_sym s p]; exact hvo.1
          · have := hvo.2
            rw [mark_skip] at this
            simp at this; exact this.2
          · intro us hnd hus
            have hlen : us.length ≤ (us.erase p).length + 1 := by
              rw [List.length_erase]; split <;> omega
            have := hv3 (us.erase p) (hnd.erase p) (by
              intro u hu
              have hne : u ≠ p := fun h => by
                subst h
                exact (List.Nodup.not_mem_erase hnd) hu
              obtain ⟨x, hx, hxu, hxo, hxc⟩ := hus u (List.mem_of_mem_erase hu)
              refine ⟨x, hx, hxu, ⟨?_, ?_⟩, hxc⟩
              · rw [mark_sym]; exact hxo.1
              · rw [mark_skip, hxu]; simp [hne]; rw [← hxu]; exact hxo.2)
            omega
      · rw [if_neg hlt, h2] at h1
        exact absurd h1 (by simp)

/-! ### the first loop -/

theorem always1_mem (s : St) (p q : Nat) :
    (always1 s p).mem q =
      if q = p then
        { s.mem p with
          wasMpr := (s.mem p).isMpr
          isMpr := (s.mem p).sym && decide ((s.mem p).will = willAlways) }
      else s.mem q := by
  unfold always1
  simp only
  split
  · next h =>
    rw [put_mem]
    split
    · rcases h with h | h <;> simp [h]
    · rfl
  · next h =>
    simp only [not_or, Bool.not_eq_false, Decidable.not_not] at h
    split <;> simp [put_mem, h]

theorem always1_changes (s : St) (p : Nat) :
    (always1 s p).changes = (s.changes ||
      ((s.mem p).sym && decide ((s.mem p).will = willAlways) && !(s.mem p).isMpr)) := by
  unfold always1
  simp only
  split
  · next h => rcases h with h | h <;> simp [h, St.put]
  · next h =>
    simp only [not_or, Bool.not_eq_false, Decidable.not_not] at h
    cases h2 : (s.mem p).isMpr <;> simp [h, St.put]

/-- The neighbour memory after the first loop. -/
theorem pass1_mem : ∀ (table : List Nat), table.Nodup → ∀ (s : St) (q : Nat),
    (table.foldl always1 s).mem q =
      if q ∈ table then
        { s.mem q with
          wasMpr := (s.mem q).isMpr
          isMpr := (s.mem q).sym && decide ((s.mem q).will = willAlways) }
      else s.mem q := by
  intro table
  induction table with
  | nil => intro _ s q; simp
  | cons p table ih =>
    intro hnd s q
    obtain ⟨hp, hnd⟩ := List.nodup_cons.1 hnd
    rw [List.foldl_cons, ih hnd, always1_mem]
    by_cases h1 : q = p
    · subst h1; simp [hp]
    · simp [h1]

theorem pass1_changes : ∀ (table : List Nat), table.Nodup → ∀ (s : St),
    ((table.foldl always1 s).changes = true ↔ s.changes = true ∨
      ∃ q ∈ table, (s.mem q).sym = true ∧ (s.mem q).will = willAlways ∧ (s.mem q).isMpr = false) := by
  intro table
  induction table with
  | nil => intro _ s; simp
  | cons p table ih =>
    intro hnd s
    obtain ⟨hp, hnd⟩ := List.nodup_cons.1 hnd
    rw [List.foldl_cons, ih hnd, always1_changes]
    have h2 : ∀ q ∈ table, (always1 s p).mem q = s.mem q := by
      intro q hq
      rw [always1_mem, if_neg]
      rintro rfl; exact hp hq
    constructor
    · rintro (h | ⟨q, hq, h⟩)
      · simp only [Bool.or_eq_true, Bool.and_eq_true, decide_eq_true_eq, Bool.not_eq_true'] at h
        rcases h with h | h
        · exact Or.inl h
        · exact Or.inr ⟨p, by simp, h.1.1, h.1.2, h.2⟩
      · rw [h2 q hq] at h
        exact Or.inr ⟨q, List.mem_cons_of_mem _ hq, h⟩
    · rintro (h | ⟨q, hq, h⟩)
      · left; simp [h]
      · rcases List.mem_cons.1 hq with rfl | hq
        · left; simp [h]
        · right; exact ⟨q, hq, by rw [h2 q hq]; exact h⟩

/-! ### mpr_changes -/

/-- `mpr_changes` says whether a neighbour of the table is newly selected. -/
def Told (table : List Nat) (s : St) : Prop :=
  s.changes = true ↔ ∃ q ∈ table, (s.mem q).isMpr = true ∧ (s.mem q).wasMpr = false

theorem mark_told (table : List Nat) (s : St) (p : Nat) (hp : p ∈ table)
    (h : Told table s) : Told table (mark s p) := by
  unfold Told at *
  rw [mark_changes]
  constructor
  · intro hc
    simp only [Bool.or_eq_true, Bool.not_eq_true'] at hc
    rcases hc with hc | hc
    · obtain ⟨q, hq, h1, h2⟩ := h.1 hc
      exact ⟨q, hq, (mark_grows s p).mpr q h1, by rw [mark_was]; exact h2⟩
    · exact ⟨p, hp, by rw [mark_isMpr]; simp, by rw [mark_was]; exact hc⟩
  · rintro ⟨q, hq, h1, h2⟩
    rw [mark_was] at h2
    rw [mark_isMpr] at h1
    by_cases hqp : q = p
    · subst hqp; simp [h2]
    · simp only [hqp, decide_false, Bool.false_or] at h1
      simp [h.2 ⟨q, hq, h1, h2⟩]

theorem coverLoop_told (table : List Nat) (ws : List Walker) (limit : Nat)
    (hws : ∀ w ∈ ws, w.nbr ∈ table) : ∀ (k : Nat) (s : St),
    Told table s → Told table (coverLoop k ws limit s) := by
  intro k
  induction k with
  | zero => intro s h; exact h
  | succ k ih =>
    intro s h
    obtain ⟨_, _, i3⟩ := pick_inv s ws
    rcases i3 with ⟨e1, _⟩ | ⟨p, e1, _, w, hw, hwp, _⟩
    · have hp : pick s ws = (none, (pick s ws).2) := by rw [← e1]
      rw [coverLoop, hp]; exact h
    · have hp : pick s ws = (some p, (pick s ws).2) := by rw [← e1]
      rw [coverLoop, hp]
      simp only
      split
      · exact ih _ (mark_told table s p (hwp ▸ hws w hw) h)
      · exact h

theorem clearSkip_told (table : List Nat) (s : St) (ws : List Walker) (h : Told table s) :
    Told table (clearSkip s ws) := by
  unfold Told at *
  rw [clearSkip_changes, h]
  have : ∀ q, ((clearSkip s ws).mem q).isMpr = (s.mem q).isMpr ∧
      ((clearSkip s ws).mem q).wasMpr = (s.mem q).wasMpr := by
    intro q; rw [clearSkip_mem]; split <;> exact ⟨rfl, rfl⟩
  constructor
  · rintro ⟨q, hq, h1⟩
    exact ⟨q, hq, by rw [(this q).1, (this q).2]; exact h1⟩
  · rintro ⟨q, hq, h1⟩
    rw [(this q).1, (this q).2] at h1
    exact ⟨q, hq, h1⟩

theorem oneTwoHop_told (e : Env) (s : St) (t : TwoHop)
    (hws : ∀ w ∈ t.walkers, w.nbr ∈ e.table) (h : Told e.table s) :
    Told e.table (oneTwoHop e s t) := by
  have hc : ∀ limit, Told e.table (cover e t limit s) := fun limit =>
    coverLoop_told e.table t.walkers limit hws _ _ (clearSkip_told _ _ _ h)
  unfold oneTwoHop
  repeat' split
  all_goals first | exact hc _ | exact h

theorem fold_told (e : Env) : ∀ (ts : List TwoHop) (s : St),
    (∀ t ∈ ts, ∀ w ∈ t.walkers, w.nbr ∈ e.table) → Told e.table s →
    Told e.table (ts.foldl (oneTwoHop e) s) := by
  intro ts
  induction ts with
  | nil => intro s _ h; exact h
  | cons t ts ih =>
    intro s hw h
    exact ih _ (fun t' ht' => hw t' (List.mem_cons_of_mem _ ht'))
      (oneTwoHop_told e s t (hw t (by simp)) h)

theorem pass1_grows (e : Env) (hnd : e.table.Nodup) (mem : Nat → Nbr) (q : Nat) :
    (((e.table.foldl always1 ⟨mem, false⟩)).mem q).sym = (mem q).sym ∧
    (((e.table.foldl always1 ⟨mem, false⟩)).mem q).will = (mem q).will := by
  rw [pass1_mem _ hnd]
  split <;> exact ⟨rfl, rfl⟩

end Verif.LqMpr
