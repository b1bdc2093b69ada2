import Verif.InfoOutLemmas
/-
The sending of the replies of an info plugin.
-/
namespace Verif.InfoOut

/-- Whatever `select` and `send` do, no assertion fails, and on each connection
happens what should: either it has a slot and the start of its reply was sent,
or it is over: the whole reply was sent in order and it was closed, or `send`
failed and it was closed, or it was refused. -/
theorem C116_replies (os : List Op) (hd : ((requests os).map Prod.fst).Nodup) :
    ∃ st, run os init = some st ∧
      ∀ k d, (k, d) ∈ requests os →
        (InSlot st k ∧ Pending k d (st.log.filter (about k))) ∨
        (¬ InSlot st k ∧ Over k d (st.log.filter (about k))) := by
  have hd' : (((requests os).reverse ++ []).map Prod.fst).Nodup := by
    rw [List.append_nil, List.map_reverse]
    exact List.pairwise_reverse.mpr (List.Pairwise.imp (fun h => h.symm) hd)
  obtain ⟨st, h1, h2, _⟩ := run_inv os [] init init_inv.1 init_inv.2 hd'
  refine ⟨st, h1, ?_⟩
  intro k d hkd
  rw [List.append_nil] at h2 hd'
  have hdist := distinct_of hd'
  have hm : (k, d) ∈ (requests os).reverse := List.mem_reverse.mpr hkd
  by_cases hs : InSlot st k
  · left
    refine ⟨hs, ?_⟩
    obtain ⟨i, s, hi, rfl⟩ := hs
    obtain ⟨g1, ch, g2, g3⟩ := h2.held i s hi
    have hdd := hdist _ _ _ hm g1
    refine ⟨ch, s.data.drop s.written, ?_, g2⟩
    rw [g3, hdd, List.take_append_drop]
  · right
    refine ⟨hs, ?_⟩
    rcases h2.over k d hm with ⟨i, s, q1, q2, _⟩ | g
    · exact absurd ⟨i, s, q1, q2⟩ hs
    · exact g

/-- The counter is the number of connections with a slot, at most eight, each
with one slot, and the timer runs exactly while there are some. -/
theorem C116_slots (os : List Op) (hd : ((requests os).map Prod.fst).Nodup) :
    ∃ st, run os init = some st ∧
      st.slots.length = 8 ∧ st.count = ((st.slots.filterMap id).length : Int) ∧
      ((st.slots.filterMap id).map Slot.sock).Nodup ∧
      (st.timer = true ↔ ∃ k, InSlot st k) := by
  have hd' : (((requests os).reverse ++ []).map Prod.fst).Nodup := by
    rw [List.append_nil, List.map_reverse]
    exact List.pairwise_reverse.mpr (List.Pairwise.imp (fun h => h.symm) hd)
  obtain ⟨st, h1, h2, h3⟩ := run_inv os [] init init_inv.1 init_inv.2 hd'
  refine ⟨st, h1, h2.len, ?_, ?_, ?_⟩
  · rw [h2.cnt]
    have : ∀ l : List (Option Slot), l.countP Option.isSome = (l.filterMap id).length := by
      intro l
      induction l with
      | nil => rfl
      | cons a l ih =>
        cases a with
        | none => simp [ih]
        | some s => simp [ih]
    rw [this]
  · have key : ∀ l : List (Option Slot),
        (∀ (i j : Nat) (s t : Slot), l[i]? = some (some s) → l[j]? = some (some t) → s.sock = t.sock → i = j) →
        ((l.filterMap id).map Slot.sock).Nodup := by
      intro l
      induction l with
      | nil => intro _; exact List.nodup_nil
      | cons a l ih =>
        intro hu
        have ht := ih (by
          intro i j s t hi hj e
          have := hu (i + 1) (j + 1) s t (by simpa using hi) (by simpa using hj) e
          omega)
        cases a with
        | none => simpa using ht
        | some s =>
          simp only [List.filterMap_cons, id, List.map_cons, List.nodup_cons]
          refine ⟨?_, ht⟩
          intro hm
          obtain ⟨t, htm, he⟩ := List.mem_map.mp hm
          obtain ⟨o, ho, ho'⟩ := List.mem_filterMap.mp htm
          have ho'' : o = some t := ho'
          subst ho''
          obtain ⟨j, hj⟩ := List.mem_iff_getElem?.mp ho
          have := hu 0 (j + 1) s t rfl (by simpa using hj) he.symm
          omega
    exact key _ h2.uniq
  · constructor
    · intro ht
      obtain ⟨j, s, hj⟩ := count_used h2 (h3.mp ht)
      exact ⟨s.sock, j, s, hj, rfl⟩
    · rintro ⟨k, j, s, hj, _⟩
      exact h3.mpr (count_pos h2 hj)

/-- Two replies, the first in two pieces, the second with an error. -/
def sampleOps : List Op :=
  [.request 1 [10, 11, 12] true (fun _ => .bytes 2),
   .request 2 [20, 21] true (fun i => if i = 7 then .again else .bytes 1),
   .tick true (fun i => if i = 7 then .bytes 5 else .fail),
   .tick true (fun _ => .again)]

example : ((requests sampleOps).map Prod.fst).Nodup := by decide
example : (run sampleOps init).map (fun st => (st.log, st.count, st.timer)) =
    some ([.sent 1 [10, 11], .sent 2 [20], .failed 2, .closed 2, .sent 1 [12], .closed 1], 0, false) := by
  decide +kernel

/-- Eight clients which do not read. -/
def stalled : List Op := (List.range 8).map fun k => .request k [1] false (fun _ => .again)

private theorem stalled_step (st : St) (h : st.count = 8) (os : List Op)
    (ho : ∀ o ∈ os, match o with
      | .request _ _ _ _ => True
      | .tick _ outs => ∀ i, outs i = .again) :
    ∃ st', run os st = some st' ∧ st'.count = 8 ∧ st'.slots = st.slots ∧
      ∀ k d, (k, d) ∈ requests os → Ev.refused k ∈ st'.log := by
  have key : ∀ (os : List Op) (st : St), st.count = 8 → (∀ o ∈ os, match o with
      | .request _ _ _ _ => True
      | .tick _ outs => ∀ i, outs i = .again) →
      ∃ st', run os st = some st' ∧ st'.count = 8 ∧ st'.slots = st.slots ∧
        (∀ e ∈ st.log, e ∈ st'.log) ∧ ∀ k d, (k, d) ∈ requests os → Ev.refused k ∈ st'.log := by
    intro os
    induction os with
    | nil => intro st h _; exact ⟨st, rfl, h, rfl, fun e he => he, fun k d hk => by cases hk⟩
    | cons o os ih =>
      intro st h ho
      have ho' := fun x hx => ho x (List.mem_cons_of_mem _ hx)
      cases o with
      | request k d r outs =>
        unfold run step
        simp only []
        rw [if_pos (by rw [h]; decide)]
        obtain ⟨st', g1, g2, g3, g4, g5⟩ := ih { st with log := st.log ++ [.refused k] } h ho'
        refine ⟨st', g1, g2, g3, fun e he => g4 e (List.mem_append_left _ he), ?_⟩
        intro k' d' hk
        rcases List.mem_cons.mp hk with e | hk
        · injection e with e1 _
          rw [e1]
          exact g4 _ (List.mem_append_right _ List.mem_cons_self)
        · exact g5 k' d' hk
      | tick r outs =>
        have ha : ∀ i, outs i = .again := ho _ List.mem_cons_self
        have hstep : ∀ (l : List Nat) (s : St), l.foldl (fun st i => stepSlot (outs i) st i) s = s := by
          intro l
          induction l with
          | nil => intro s; rfl
          | cons i l ihl =>
            intro s
            have : stepSlot (outs i) s i = s := by
              unfold stepSlot
              rw [ha i]
              split <;> rfl
            rw [List.foldl_cons, this]
            exact ihl s
        have hw : writeData r outs st = st := by
          have h1 : ¬ st.count ≤ 0 := by omega
          have h2 : ¬ st.count = 0 := by omega
          unfold writeData
          rw [if_neg h1, hstep]
          unfold stopTimer
          rw [if_neg h2]
          split <;> rfl
        unfold run step
        simp only []
        rw [hw]
        have : (if st.timer = true then some st else some st) = some st := by split <;> rfl
        rw [this]
        exact ih st h ho'
  obtain ⟨st', g1, g2, g3, _, g5⟩ := key os st h ho
  exact ⟨st', g1, g2, g3, g5⟩

/-- A reply has no time limit: eight clients which do not read their replies
keep all others out for as long as they like. -/
theorem C116_stalled_negation :
    ∃ before : List Op, before.length = 8 ∧ ∀ os : List Op,
      (∀ o ∈ os, match o with
        | .request _ _ _ _ => True
        | .tick _ outs => ∀ i, outs i = .again) →
      ∃ st, run (before ++ os) init = some st ∧ ∀ k d, (k, d) ∈ requests os → Ev.refused k ∈ st.log := by
  refine ⟨stalled, by decide, ?_⟩
  intro os ho
  have happ : ∀ (a b : List Op) (st : St), run (a ++ b) st = (run a st).bind (run b) := by
    intro a
    induction a with
    | nil => intro b st; rfl
    | cons o a ih =>
      intro b st
      simp only [List.cons_append, run]
      cases step st o with
      | none => rfl
      | some st' => exact ih b st'
  have h8 : (run stalled init).map (fun st => st.count) = some 8 := by decide +kernel
  rw [happ]
  cases hr : run stalled init with
  | none => rw [hr] at h8; cases h8
  | some st8 =>
    rw [hr] at h8
    obtain ⟨st', g1, _, _, g4⟩ := stalled_step st8 (by injection h8) os ho
    exact ⟨st', g1, g4⟩

end Verif.InfoOut
