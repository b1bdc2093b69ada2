import Verif.TimerLemmas

/-! # Which timers fire, and how often: lemmas -/

namespace Verif.Timer

open Verif.SchedTime

/-- the timer is allocated or on some list -/
def Known (st : St) (id : Nat) : Prop := (st.entries id).live = true ∨ (∃ k, id ∈ st.wheel k) ∨ id ∈ st.tmp

/-- `ex`: the timer whose callback is being executed -/
structure Once (ex : Option Nat) (st : St) : Prop where
  known : ∀ id, Known st id → (st.entries id).running = true ∨ (st.entries id).removed = true
  logged : ∀ f ∈ st.log, f.id < st.next ∧ f.due ≤ f.at_ ∧ f.at_ ≤ st.tnow ∧
    (some f.id ≠ ex → (st.entries f.id).running = true → f.at_ < (st.entries f.id).due)
  nodup : st.log.Pairwise (fun a b => ¬ (a.id = b.id ∧ a.due = b.due))

theorem change_once {R lo s ex Q st} (h : Inv R lo s ex Q st) {x} (ho : Once x st) (id rel pct : Nat) (p : Bool)
    (hr1 : 1 ≤ rel) (hr2 : rel < 2147483648)
    (hf : (st.entries id).running = true ∨ (st.entries id).removed = true)
    (x' : Option Nat) (hx : x' = x ∨ (x' = none ∧ x = some id)) :
    Once x' (change st id rel pct p) := by
  obtain ⟨-, hd, -, -⟩ := dueOf_spec st.tnow rel pct (st.entries id).random hr1 hr2 (h.ok id).random
  refine ⟨?_, ?_, ho.3⟩
  · intro i hi
    by_cases e : i = id
    · subst e
      simp only [change, addToSlot, unlink, setEntry, if_true]; exact hf
    · have : Known st i := by
        rcases hi with hi | ⟨k, hi⟩ | hi
        · left; simpa [change, addToSlot, unlink, setEntry, e] using hi
        · right; left
          refine ⟨k, ?_⟩
          simp only [change, addToSlot, unlink, setEntry] at hi
          split at hi
          · rcases List.mem_append.1 hi with hi | hi
            · exact (List.mem_filter.1 hi).1
            · simp at hi; exact absurd hi e
          · exact (List.mem_filter.1 hi).1
        · right; right
          simp only [change, addToSlot, unlink, setEntry] at hi
          exact (List.mem_filter.1 hi).1
      simpa [change, addToSlot, unlink, setEntry, e] using ho.known i this
  · intro f hf'
    obtain ⟨h1, h2, h3, h4⟩ := ho.logged f hf'
    refine ⟨h1, h2, h3, ?_⟩
    intro hne
    simp only [change, addToSlot, unlink, setEntry]
    split
    · intro _
      show f.at_ < dueOf st.tnow (calcJitter st.now rel pct (st.entries id).random)
      unfold St.now; omega
    · rename_i e
      refine h4 ?_
      rcases hx with rfl | ⟨_, rfl⟩
      · exact hne
      · intro hh; injection hh with hh; exact e hh

theorem stop_once {x st} (ho : Once x st) (id : Nat) (x' : Option Nat) (hx : x' = x ∨ (x' = none ∧ x = some id)) :
    Once x' (stop st id) := by
  unfold stop
  simp only
  split
  · refine ⟨?_, ?_, ho.3⟩
    · intro i hi
      simp only [setEntry]
      split
      · right; rfl
      · rename_i e
        refine ho.known i ?_
        rcases hi with hi | hi
        · left; simpa [setEntry, e] using hi
        · right; exact hi
    · intro f hf
      obtain ⟨h1, h2, h3, h4⟩ := ho.logged f hf
      refine ⟨h1, h2, h3, ?_⟩
      simp only [setEntry]
      split
      · intro _ h; cases h
      · rename_i e
        intro hne
        refine h4 ?_
        rcases hx with rfl | ⟨_, rfl⟩
        · exact hne
        · intro hh; injection hh with hh; exact e hh
  · rename_i hr
    refine ⟨ho.1, ?_, ho.3⟩
    intro f hf
    obtain ⟨h1, h2, h3, h4⟩ := ho.logged f hf
    refine ⟨h1, h2, h3, ?_⟩
    intro hne hrun
    refine h4 ?_ hrun
    rcases hx with rfl | ⟨_, rfl⟩
    · exact hne
    · intro hh; injection hh with hh; rw [hh] at hrun; exact hr hrun

theorem cbStep_once {R lo s ex Q st} (h : Inv R lo s ex Q st) {x} (ho : Once x st) (op : CbOp) (hop : CbOk op) :
    Once x (cbStep st op) := by
  have hub : Once x { st with ub := true } := ⟨ho.1, ho.2, ho.3⟩
  match op with
  | .start rel pct p r =>
    refine ⟨?_, ?_, ho.3⟩
    · intro id hid
      by_cases e : id = st.next
      · simp only [cbStep, start, addToSlot, setEntry]; rw [if_pos e]; exact Or.inl rfl
      · have : Known st id := by
          rcases hid with hi | ⟨k, hi⟩ | hi
          · left; simpa [cbStep, start, addToSlot, setEntry, e] using hi
          · right; left
            refine ⟨k, ?_⟩
            simp only [cbStep, start, addToSlot, setEntry] at hi
            split at hi
            · rcases List.mem_append.1 hi with hi | hi
              · exact hi
              · simp at hi; exact absurd hi e
            · exact hi
          · right; right; exact hi
        simp only [cbStep, start, addToSlot, setEntry]; rw [if_neg e]
        exact ho.known id this
    · intro f hf
      obtain ⟨h1, h2, h3, h4⟩ := ho.logged f hf
      simp only [cbStep, start, addToSlot, setEntry]
      rw [if_neg (by omega)]
      exact ⟨by omega, h2, h3, h4⟩
  | .stop id =>
    simp only [cbStep]
    split
    · exact stop_once ho id x (Or.inl rfl)
    · exact hub
  | .change id rel pct p =>
    simp only [cbStep]
    split
    · rename_i hl
      exact change_once h ho id rel pct p hop.1 hop.2 (ho.known id (Or.inl hl)) x (Or.inl rfl)
    · exact hub

theorem foldl_once {R lo s ex Q x} (ops : List CbOp) : ∀ {st}, Inv R lo s ex Q st → Once x st → (∀ op ∈ ops, CbOk op) →
    Once x (ops.foldl cbStep st) := by
  induction ops with
  | nil => intro st _ h _; exact h
  | cons op ops ih =>
    intro st h ho hok
    exact ih (cbStep_inv h op (hok op (by simp))) (cbStep_once h ho op (hok op (by simp))) (fun o h => hok o (by simp [h]))

theorem fire_once {R lo s Q st} (env : Env) (henv : EnvOk env) (id : Nat) (h : Inv R lo s (some id) Q st)
    (ho : Once none st) (hrun : (st.entries id).running = true)
    (hdue : (st.entries id).due ≤ st.tnow) : Once none (fire env st id) := by
  have hidn := lt_next_of_running h hrun
  have h0 : Inv R lo s (some id) Q (record st id) :=
    ⟨h.1, h.2, h.3, h.4, h.5, h.6, by
      intro f hf
      rcases List.mem_cons.1 hf with rfl | hf
      · exact hdue
      · exact h.early f hf, h.8⟩
  have o0 : Once (some id) (record st id) := by
    refine ⟨ho.1, ?_, ?_⟩
    · intro f hf
      rcases List.mem_cons.1 hf with rfl | hf
      · exact ⟨hidn, hdue, Nat.le_refl _, fun hne => absurd rfl hne⟩
      · obtain ⟨h1, h2, h3, h4⟩ := ho.logged f hf
        exact ⟨h1, h2, h3, fun _ => h4 (by simp)⟩
    · refine List.pairwise_cons.2 ⟨?_, ho.3⟩
      rintro f hf ⟨e1, e2⟩
      obtain ⟨h1, h2, h3, h4⟩ := ho.logged f hf
      simp only at e1 e2
      have := h4 (by simp) (by rw [← e1]; exact hrun)
      rw [← e1] at this
      omega
  unfold fire
  simp only
  generalize record st id = st1 at h0 o0 ⊢
  have h2 := foldl_inv (env.cb st1 id) h0 (henv.1 st1 id)
  have o2 := foldl_once (env.cb st1 id) h0 o0 (henv.1 st1 id)
  generalize (env.cb st1 id).foldl cbStep st1 = st2 at h2 o2 ⊢
  by_cases hr : (st2.entries id).running = true
  · rw [if_pos hr]
    have hid := lt_next_of_running h2 hr
    by_cases hp : (st2.entries id).period ≠ 0
    · rw [if_pos hp]
      have h3 : Inv R lo s (some id) Q (setEntry st2 id { st2.entries id with random := env.random st2 }) :=
        mark_inv h2 id { st2.entries id with random := env.random st2 } hid rfl (fun h => h)
          ⟨(h2.ok id).clock, (h2.ok id).due, (h2.ok id).period, henv.2 st2, (h2.ok id).flags⟩ _ (Or.inl rfl)
      have o3 : Once (some id) (setEntry st2 id { st2.entries id with random := env.random st2 }) := by
        refine ⟨?_, ?_, o2.3⟩
        · intro i hi
          by_cases e : i = id
          · subst e; simp only [setEntry, if_true]; exact Or.inl hr
          · simp only [setEntry]; rw [if_neg e]
            refine o2.known i ?_
            rcases hi with hi | hi
            · left; simpa [setEntry, e] using hi
            · right; exact hi
        · intro f hf
          obtain ⟨a, b, c, d⟩ := o2.logged f hf
          refine ⟨a, b, c, ?_⟩
          intro hne
          have e : f.id ≠ id := fun e => hne (by rw [e])
          simp only [setEntry]; rw [if_neg e]; exact d hne
      exact change_once h3 o3 id _ _ true (by omega) (h2.ok id).period
        (by simp only [setEntry, if_true]; exact Or.inl hr) none (Or.inr ⟨rfl, rfl⟩)
    · rw [if_neg hp]
      exact stop_once o2 id none (Or.inr ⟨rfl, rfl⟩)
  · rw [if_neg hr]
    refine ⟨o2.1, ?_, o2.3⟩
    intro f hf
    obtain ⟨a, b, c, d⟩ := o2.logged f hf
    refine ⟨a, b, c, ?_⟩
    intro _ hrun'
    refine d ?_ hrun'
    intro e; injection e with e; rw [e] at hrun'; exact hr hrun'

theorem park_once {st} (ho : Once none st) (id : Nat) (k : Nat) (hw : id ∈ st.wheel k) : Once none (park st id) := by
  refine ⟨?_, ho.2, ho.3⟩
  intro i hi
  refine ho.known i ?_
  rcases hi with hi | ⟨k, hi⟩ | hi
  · exact Or.inl hi
  · right; left
    simp only [park, unlink, List.mem_filter] at hi
    exact ⟨k, hi.1⟩
  · simp only [park, unlink, List.mem_cons, List.mem_filter] at hi
    rcases hi with rfl | hi
    · right; left; exact ⟨_, hw⟩
    · right; right; exact hi.1

theorem walkSlot_once {lo s : Nat} {Q : Nat → Prop} (env : Env) (henv : EnvOk env) (fuel : Nat) : ∀ st,
    Inv False lo s none Q st → Once none st → ∀ st', walkSlot env s fuel st = some st' → Once none st' := by
  induction fuel with
  | zero => intro st _ _ st' h; cases h
  | succ fuel ih =>
    intro st hinv ho st' hst'
    rw [walkSlot] at hst'
    split at hst'
    · rename_i hnil
      injection hst' with hst'
      subst hst'
      refine ⟨?_, ho.2, ho.3⟩
      intro i hi
      refine ho.known i ?_
      rcases hi with hi | ⟨k, hi⟩ | hi
      · exact Or.inl hi
      · simp only at hi
        split at hi
        · exact Or.inr (Or.inr hi)
        · exact Or.inr (Or.inl ⟨k, hi⟩)
      · cases hi
    · rename_i id l hl
      have hmem : id ∈ st.wheel s := by rw [hl]; simp
      have hp := park_inv hinv id l hl
      have hop := park_once ho id s hmem
      simp only at hst'
      have hkn : Known (park st id) id := by right; right; simp [park]
      generalize park st id = st2 at hst' hp hop hkn
      by_cases hrem : (st2.entries id).removed = true
      · rw [if_pos hrem] at hst'
        exact ih st2 (unex_inv id hp (fun h => h.elim)) hop st' hst'
      · rw [if_neg hrem] at hst'
        by_cases hto : isTimedOut st2.now (st2.entries id).clock = true
        · rw [if_pos hto] at hst'
          have hdue : (st2.entries id).due ≤ st2.tnow := by
            refine Nat.le_of_not_lt fun hlt => ?_
            have := not_timedOut_of_future _ _ hlt (hp.ok id).due
            rw [(hp.ok id).clock, St.now, this] at hto; cases hto
          have hrun : (st2.entries id).running = true := (hop.known id hkn).resolve_right hrem
          exact ih _ (fire_inv env henv id hp hdue) (fire_once env henv id hp hop hrun hdue) st' hst'
        · rw [if_neg hto] at hst'
          exact ih st2 (unex_inv id hp (fun h => h.elim)) hop st' hst'

theorem walkLoop_once {lo} {Q : Nat → Prop} (env : Env) (henv : EnvOk env) (fuel : Nat) (n : Nat) : ∀ st,
    st.tmp = [] → Inv False lo 0 none Q st → Once none st → ∀ st', walkLoop env fuel n st = some st' → Once none st' := by
  induction n with
  | zero => intro st ht h ho st' hs; injection hs with hs; subst hs; exact ho
  | succ n ih =>
    intro st ht h ho st' hs
    rw [walkLoop] at hs
    split at hs
    · split at hs
      · cases hs
      · rename_i st1 hw
        have h1 : Inv False lo (st.lastRun % 1024) none Q st := h.mono ht (fun h => h.elim)
        obtain ⟨h2, h3, h4, h5⟩ := walkSlot_inv env henv fuel st h1 st1 hw
        have o2 := walkSlot_once env henv fuel st h1 ho st1 hw
        have h6 : Inv False lo 0 none Q { st1 with lastRun := (st1.lastRun + 1) % W } :=
          ((h2.mono (s' := 0) (Q' := Q) h3 (fun h => h.elim))).lastRun _
        exact ih { st1 with lastRun := (st1.lastRun + 1) % W } h3 h6 ⟨o2.1, o2.2, o2.3⟩ st' hs
    · injection hs with hs; subst hs; exact ho

theorem cleanup_once {st} (ho : Once none st) : Once none (cleanup st) := by
  refine ⟨?_, ?_, ho.3⟩
  · intro i hi
    cases hrem : (st.entries i).removed with
    | true =>
      exfalso
      rcases hi with hi | ⟨k, hi⟩ | hi
      · simp [cleanup, hrem, Timer.dead] at hi
      · simp [cleanup, List.mem_filter, hrem] at hi
      · simp [cleanup, List.mem_filter, hrem] at hi
    | false =>
      have : Known st i := by
        rcases hi with hi | ⟨k, hi⟩ | hi
        · left; simpa [cleanup, hrem] using hi
        · right; left; exact ⟨k, (List.mem_filter.1 hi).1⟩
        · right; right; exact (List.mem_filter.1 hi).1
      have := ho.known i this
      rw [hrem] at this
      simp only [cleanup, hrem]
      left; simpa using this
  · intro f hf
    obtain ⟨a, b, c, d⟩ := ho.logged f hf
    refine ⟨a, b, c, ?_⟩
    intro hne
    simp only [cleanup]
    split
    · intro h; cases h
    · exact d hne

/-! ### a due timer that no callback touches is fired -/

/-- the callbacks leave timer `id` alone -/
def Untouched (env : Env) (id : Nat) : Prop :=
  ∀ st i, ∀ op ∈ env.cb st i, op ≠ .stop id ∧ ∀ rel pct p, op ≠ .change id rel pct p

/-- timer `id` with expiry `d` is still waiting, or has been fired -/
def Waiting (id d : Nat) (st : St) : Prop :=
  id < st.next ∧ (((st.entries id).running = true ∧ (st.entries id).due = d) ∨ ⟨id, d, st.tnow⟩ ∈ st.log)

theorem cbStep_waiting {id d st} (h : Waiting id d st) (op : CbOp) (h1 : op ≠ .stop id)
    (h2 : ∀ rel pct p, op ≠ .change id rel pct p) : Waiting id d (cbStep st op) := by
  obtain ⟨hid, h⟩ := h
  match op with
  | .start rel pct p r =>
    refine ⟨by show id < st.next + 1; omega, ?_⟩
    rcases h with h | h
    · left
      simp only [cbStep, start, addToSlot, setEntry]
      rw [if_neg (by omega)]; exact h
    · right; exact h
  | .stop i =>
    have e : id ≠ i := fun e => h1 (by rw [e])
    simp only [cbStep, stop]
    split
    · split
      · refine ⟨hid, ?_⟩
        rcases h with h | h
        · left; simp only [setEntry]; rw [if_neg e]; exact h
        · right; exact h
      · exact ⟨hid, h⟩
    · exact ⟨hid, h⟩
  | .change i rel pct p =>
    have e : id ≠ i := fun e => h2 rel pct p (by rw [e])
    simp only [cbStep]
    split
    · refine ⟨hid, ?_⟩
      rcases h with h | h
      · left; simp only [change, addToSlot, unlink, setEntry]; rw [if_neg e]; exact h
      · right; exact h
    · exact ⟨hid, h⟩

theorem foldl_waiting {id d} (ops : List CbOp) : ∀ st, Waiting id d st →
    (∀ op ∈ ops, op ≠ .stop id ∧ ∀ rel pct p, op ≠ .change id rel pct p) → Waiting id d (ops.foldl cbStep st) := by
  induction ops with
  | nil => intro st h _; exact h
  | cons op ops ih =>
    intro st h hops
    exact ih _ (cbStep_waiting h op (hops op (by simp)).1 (hops op (by simp)).2) (fun o ho => hops o (by simp [ho]))

theorem fire_waiting {id d st} (env : Env) (hu : Untouched env id) (i : Nat) (h : Waiting id d st) :
    Waiting id d (fire env st i) := by
  have h0 : Waiting id d (record st i) := ⟨h.1, h.2.imp (fun h => h) (fun h => List.mem_cons_of_mem _ h)⟩
  have hlog : i = id → (st.entries id).running = true ∧ (st.entries id).due = d → ⟨id, d, st.tnow⟩ ∈ (record st i).log := by
    rintro rfl ⟨_, h2⟩
    simp [record, h2]
  unfold fire
  simp only
  have htn : (record st i).tnow = st.tnow := rfl
  have hlog0 : ∀ x, x ∈ st.log → x ∈ (record st i).log := fun x h => List.mem_cons_of_mem _ h
  generalize record st i = st1 at h0 hlog htn hlog0 ⊢
  have h2 := foldl_waiting (env.cb st1 i) st1 h0 (hu st1 i)
  obtain ⟨f1, f2, f3⟩ := foldl_frame (env.cb st1 i) st1
  generalize (env.cb st1 i).foldl cbStep st1 = st2 at h2 f1 f2 f3 ⊢
  have hin : i = id → ⟨id, d, st2.tnow⟩ ∈ st2.log := by
    intro e
    rw [f1, f3, htn]
    rcases h.2 with h | h
    · exact hlog e h
    · exact hlog0 _ h
  by_cases hr : (st2.entries i).running = true
  · rw [if_pos hr]
    by_cases hp : (st2.entries i).period ≠ 0
    · rw [if_pos hp]
      refine ⟨h2.1, ?_⟩
      by_cases e : i = id
      · right; exact hin e
      · rcases h2.2 with h | h
        · left
          simp only [change, addToSlot, unlink, setEntry]
          rw [if_neg (fun e' => e e'.symm), if_neg (fun e' => e e'.symm)]; exact h
        · right; exact h
    · rw [if_neg hp]
      simp only [stop, if_pos hr]
      refine ⟨h2.1, ?_⟩
      by_cases e : i = id
      · right; exact hin e
      · rcases h2.2 with h | h
        · left
          simp only [setEntry]
          rw [if_neg (fun e' => e e'.symm)]; exact h
        · right; exact h
  · rw [if_neg hr]; exact h2

theorem walkSlot_waiting {id d : Nat} (env : Env) (hu : Untouched env id) (s fuel : Nat) : ∀ st,
    Waiting id d st → ∀ st', walkSlot env s fuel st = some st' → Waiting id d st' := by
  induction fuel with
  | zero => intro st _ st' h; cases h
  | succ fuel ih =>
    intro st h st' hst'
    rw [walkSlot] at hst'
    split at hst'
    · injection hst' with hst'; subst hst'; exact h
    · rename_i i l hl
      have hp : Waiting id d (park st i) := h
      simp only at hst'
      generalize park st i = st2 at hst' hp
      split at hst'
      · exact ih _ hp _ hst'
      · split at hst'
        · exact ih _ (fire_waiting env hu i hp) _ hst'
        · exact ih _ hp _ hst'

theorem walkLoop_waiting {id d : Nat} (env : Env) (hu : Untouched env id) (fuel n : Nat) : ∀ st,
    Waiting id d st → ∀ st', walkLoop env fuel n st = some st' → Waiting id d st' := by
  induction n with
  | zero => intro st h st' hs; injection hs with hs; subst hs; exact h
  | succ n ih =>
    intro st h st' hs
    rw [walkLoop] at hs
    split at hs
    · split at hs
      · cases hs
      · rename_i st1 hw
        exact ih { st1 with lastRun := (st1.lastRun + 1) % W } (walkSlot_waiting env hu _ fuel st h st1 hw) st' hs
    · injection hs with hs; subst hs; exact h

end Verif.Timer
