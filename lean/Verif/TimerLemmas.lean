import Verif.TimerModel
import Verif.SchedTimeProps

/-! # Invariants of the timer wheel -/

namespace Verif.Timer

open Verif.SchedTime

/-- arguments accepted by the timer calls: a delay from 1 ms up to 2^31 - 1 ms, and `olsr_random()`
within its documented range -/
def CbOk : CbOp → Prop
  | .start rel _ _ random => 1 ≤ rel ∧ rel < 2147483648 ∧ random ≤ 2147483647
  | .stop _ => True
  | .change _ rel _ _ => 1 ≤ rel ∧ rel < 2147483648

/-- an environment whose callbacks use the timer calls properly -/
def EnvOk (env : Env) : Prop :=
  (∀ st id, ∀ op ∈ env.cb st id, CbOk op) ∧ ∀ st, env.random st ≤ 2147483647

structure TimerOk (tnow : Nat) (t : Timer) : Prop where
  clock : t.clock = t.due % W
  due : t.due < tnow + H
  period : t.period < H
  random : t.random ≤ 2147483647
  flags : t.running = true → t.removed = false

/-- `s`: slot of the timers on the temporary list; `ex`: the timer being fired; `Q`: the slots still to
be visited; `R`: whether lateness is tracked;
`lo`: lower bound of the expiry times (the last walk) -/
structure Inv (R : Prop) (lo : Nat) (s : Nat) (ex : Option Nat) (Q : Nat → Prop) (st : St) : Prop where
  wheelSlot : ∀ k id, id ∈ st.wheel k → (st.entries id).due % 1024 = k ∧ id < st.next
  tmpSlot : ∀ id, id ∈ st.tmp → (st.entries id).due % 1024 = s ∧ id < st.next
  fresh : ∀ id, st.next ≤ id → st.entries id = Timer.dead
  ok : ∀ id, TimerOk st.tnow (st.entries id)
  onList : ∀ id, (st.entries id).running = true →
    id ∈ st.wheel ((st.entries id).due % 1024) ∨ id ∈ st.tmp
  late : R → ∀ id, (st.entries id).running = true → some id ≠ ex → (st.entries id).due ≤ st.tnow →
    id ∈ st.wheel ((st.entries id).due % 1024) ∧ Q ((st.entries id).due % 1024)
  early : ∀ f ∈ st.log, f.due ≤ f.at_
  recent : R → lo ≤ st.tnow ∧ st.tnow < lo + H ∧ ∀ id, (st.entries id).running = true → lo ≤ (st.entries id).due

theorem dead_ok (tnow : Nat) : TimerOk tnow Timer.dead :=
  ⟨rfl, by show 0 < tnow + H; omega, by show 0 < H; omega, by show 0 ≤ 2147483647; omega, fun h => by cases h⟩

theorem dueOf_spec (tnow rel pct random : Nat) (hr1 : 1 ≤ rel) (hr2 : rel < 2147483648) (hr : random ≤ 2147483647) :
    let c := calcJitter (tnow % W) rel pct random
    c = dueOf tnow c % W ∧ tnow < dueOf tnow c ∧ dueOf tnow c ≤ tnow + rel ∧ c % 1024 = dueOf tnow c % 1024 := by
  obtain ⟨delay, h1, h2, -, h3⟩ := C09_jitter_bounds (tnow % W) rel pct random (by omega) hr
  have h3 := h3 (by omega)
  simp only [h1]
  have : dueOf tnow ((tnow % W + delay) % W) = tnow + delay := by unfold dueOf; omega
  rw [this]
  omega

theorem put_inv {R : Prop} {lo s : Nat} {ex : Option Nat} {Q : Nat → Prop} {st st' : St} (h : Inv R lo s ex Q st) (id : Nat) (t : Timer)
    (he : st'.entries = fun i => if i = id then t else st.entries i)
    (hw : ∀ k i, i ∈ st'.wheel k ↔ (i ≠ id ∧ i ∈ st.wheel k) ∨ (i = id ∧ k = t.due % 1024))
    (ht : ∀ i, i ∈ st'.tmp ↔ i ≠ id ∧ i ∈ st.tmp)
    (hn : st'.tnow = st.tnow) (hl : st'.log = st.log) (hx : st.next ≤ st'.next) (hid : id < st'.next)
    (hok : TimerOk st.tnow t) (hdue : st.tnow < t.due) (ex' : Option Nat) (hex : ex' = ex ∨ (ex' = none ∧ ex = some id)) :
    Inv R lo s ex' Q st' where
  wheelSlot := by
    intro k i hi
    rw [hw] at hi
    rw [he]
    rcases hi with ⟨h1, h2⟩ | ⟨h1, h2⟩
    · have := h.wheelSlot k i h2
      simp only [if_neg h1]; exact ⟨this.1, by omega⟩
    · simp only [if_pos h1]; exact ⟨h2.symm, by omega⟩
  tmpSlot := by
    intro i hi
    rw [ht] at hi
    rw [he]
    have := h.tmpSlot i hi.2
    simp only [if_neg hi.1]; exact ⟨this.1, by omega⟩
  fresh := by
    intro i hi
    rw [he]
    simp only [if_neg (show i ≠ id by omega)]
    exact h.fresh i (by omega)
  ok := by
    intro i
    rw [he, hn]
    by_cases hi : i = id
    · simp only [if_pos hi]; exact hok
    · simp only [if_neg hi]; exact h.ok i
  onList := by
    intro i hr
    rw [he] at hr ⊢
    by_cases hi : i = id
    · simp only [if_pos hi]; left; rw [hw]; exact Or.inr ⟨hi, rfl⟩
    · simp only [if_neg hi] at hr ⊢
      rcases h.onList i hr with h1 | h1
      · left; rw [hw]; exact Or.inl ⟨hi, h1⟩
      · right; rw [ht]; exact ⟨hi, h1⟩
  late := by
    intro hR i hr hne hd
    rw [he] at hr hd ⊢
    by_cases hi : i = id
    · simp only [if_pos hi] at hd; omega
    · simp only [if_neg hi] at hr hd ⊢
      have hne' : some i ≠ ex := by
        rcases hex with rfl | ⟨_, hx⟩
        · exact hne
        · rw [hx]; intro h; injection h with h; exact hi h
      obtain ⟨h1, h2⟩ := h.late hR i hr hne' (by omega)
      exact ⟨by rw [hw]; exact Or.inl ⟨hi, h1⟩, h2⟩
  early := by rw [hl]; exact h.early
  recent := by
    intro hR
    obtain ⟨h1, h2, h3⟩ := h.recent hR
    refine ⟨by omega, by omega, ?_⟩
    intro i hr
    rw [he] at hr ⊢
    by_cases hi : i = id
    · simp only [if_pos hi]; omega
    · simp only [if_neg hi] at hr ⊢; exact h3 i hr

theorem start_inv {R lo s ex Q st} (h : Inv R lo s ex Q st) (rel pct : Nat) (p : Bool) (random : Nat)
    (hr1 : 1 ≤ rel) (hr2 : rel < 2147483648) (hr : random ≤ 2147483647) :
    Inv R lo s ex Q (start st rel pct p random) := by
  obtain ⟨h1, h2, h3, h4⟩ := dueOf_spec st.tnow rel pct random hr1 hr2 hr
  refine put_inv (st' := start st rel pct p random) h st.next
    { clock := calcJitter st.now rel pct random, due := dueOf st.tnow (calcJitter st.now rel pct random),
      period := if p then rel else 0, pct, random, running := true, removed := false, live := true }
    rfl ?_ ?_ rfl rfl (Nat.le_succ _) (Nat.lt_succ_self _) ?_ h2 ex (Or.inl rfl)
  · intro k i
    simp only [start, addToSlot, setEntry]
    constructor
    · intro hi
      split at hi
      · rcases List.mem_append.1 hi with hi | hi
        · exact Or.inl ⟨by have := (h.wheelSlot k i hi).2; omega, hi⟩
        · simp only [List.mem_singleton] at hi
          right; exact ⟨hi, by rename_i hk _; rw [hk]; exact h4⟩
      · exact Or.inl ⟨by have := (h.wheelSlot k i hi).2; omega, hi⟩
    · rintro (⟨_, hi⟩ | ⟨hi, hk⟩)
      · split
        · exact List.mem_append.2 (Or.inl hi)
        · exact hi
      · rw [if_pos (by rw [hk]; exact h4.symm)]
        exact List.mem_append.2 (Or.inr (by simp [hi]))
  · intro i
    simp only [start, addToSlot, setEntry]
    exact ⟨fun hi => ⟨by have := (h.tmpSlot i hi).2; omega, hi⟩, fun hi => hi.2⟩
  · exact ⟨h1, by show dueOf _ _ < _; unfold St.now; omega, by show (if p = true then rel else 0) < H; split <;> omega, hr, fun _ => rfl⟩

theorem change_inv {R lo s ex Q st} (h : Inv R lo s ex Q st) (id rel pct : Nat) (p : Bool)
    (hr1 : 1 ≤ rel) (hr2 : rel < 2147483648) (hid : id < st.next)
    (ex' : Option Nat) (hex : ex' = ex ∨ (ex' = none ∧ ex = some id)) :
    Inv R lo s ex' Q (change st id rel pct p) := by
  obtain ⟨h1, h2, h3, h4⟩ := dueOf_spec st.tnow rel pct (st.entries id).random hr1 hr2 (h.ok id).random
  refine put_inv (st' := change st id rel pct p) h id
    { st.entries id with
      clock := calcJitter st.now rel pct (st.entries id).random,
      due := dueOf st.tnow (calcJitter st.now rel pct (st.entries id).random),
      period := if p then rel else 0, pct }
    rfl ?_ ?_ rfl rfl (Nat.le_refl _) hid ?_ h2 ex' hex
  · intro k i
    simp only [change, addToSlot, setEntry, unlink]
    constructor
    · intro hi
      split at hi
      · rcases List.mem_append.1 hi with hi | hi
        · simp at hi; exact Or.inl ⟨hi.2, hi.1⟩
        · simp only [List.mem_singleton] at hi
          right; exact ⟨hi, by rename_i hk _; rw [hk]; exact h4⟩
      · simp at hi; exact Or.inl ⟨hi.2, hi.1⟩
    · rintro (⟨hne, hi⟩ | ⟨hi, hk⟩)
      · split
        · exact List.mem_append.2 (Or.inl (by simp [hi, hne]))
        · simp [hi, hne]
      · rw [if_pos (by rw [hk]; exact h4.symm)]
        exact List.mem_append.2 (Or.inr (by simp [hi]))
  · intro i
    simp only [change, addToSlot, setEntry, unlink]
    simp [and_comm]
  · exact ⟨h1, by show dueOf _ _ < _; unfold St.now; omega, by show (if p = true then rel else 0) < H; split <;> omega,
      (h.ok id).random, (h.ok id).flags⟩

/-- replacing an entry without touching expiry or lists, not making it running -/
theorem mark_inv {R lo s ex Q st} (h : Inv R lo s ex Q st) (id : Nat) (t : Timer) (hid : id < st.next)
    (hdue : t.due = (st.entries id).due) (hrun : t.running = true → (st.entries id).running = true)
    (hok : TimerOk st.tnow t) (ex' : Option Nat)
    (hex : ex' = ex ∨ (ex' = none ∧ ex = some id ∧ t.running = false)) :
    Inv R lo s ex' Q (setEntry st id t) where
  wheelSlot := by
    intro k i hi
    have := h.wheelSlot k i hi
    simp only [setEntry]
    split
    · rename_i e; subst e; rw [hdue]; exact this
    · exact this
  tmpSlot := by
    intro i hi
    have := h.tmpSlot i hi
    simp only [setEntry]
    split
    · rename_i e; subst e; rw [hdue]; exact this
    · exact this
  fresh := by
    intro i hi
    have hi' : st.next ≤ i := hi
    simp only [setEntry]
    rw [if_neg (by omega)]; exact h.fresh i hi
  ok := by
    intro i
    simp only [setEntry]
    split
    · exact hok
    · exact h.ok i
  onList := by
    intro i hr
    simp only [setEntry] at hr ⊢
    split at hr
    · rename_i e; subst e; rw [if_pos rfl, hdue]; exact h.onList i (hrun hr)
    · rename_i e; rw [if_neg e]; exact h.onList i hr
  late := by
    intro hR i hr hne hd
    simp only [setEntry] at hr hd ⊢
    by_cases e : i = id
    · subst e
      rw [if_pos rfl] at hr hd ⊢
      rw [hdue] at hd ⊢
      refine h.late hR i (hrun hr) ?_ hd
      rcases hex with rfl | ⟨_, hx, hf⟩
      · exact hne
      · rw [hf] at hr; cases hr
    · rw [if_neg e] at hr hd ⊢
      refine h.late hR i hr ?_ hd
      rcases hex with rfl | ⟨_, hx, _⟩
      · exact hne
      · rw [hx]; intro h; injection h with h; exact e h
  early := h.early
  recent := by
    intro hR
    obtain ⟨h1, h2, h3⟩ := h.recent hR
    refine ⟨h1, h2, ?_⟩
    intro i hr
    simp only [setEntry] at hr ⊢
    by_cases e : i = id
    · subst e; rw [if_pos rfl] at hr ⊢; rw [hdue]; exact h3 i (hrun hr)
    · rw [if_neg e] at hr ⊢; exact h3 i hr

theorem lt_next_of_live {R lo s ex Q st} (h : Inv R lo s ex Q st) {id : Nat} (hl : (st.entries id).live = true) : id < st.next := by
  refine Nat.lt_of_not_le fun hle => ?_
  rw [h.fresh id hle] at hl; cases hl

theorem lt_next_of_running {R lo s ex Q st} (h : Inv R lo s ex Q st) {id : Nat} (hl : (st.entries id).running = true) :
    id < st.next := by
  refine Nat.lt_of_not_le fun hle => ?_
  rw [h.fresh id hle] at hl; cases hl

theorem stop_inv {R lo s ex Q st} (h : Inv R lo s ex Q st) (id : Nat) : Inv R lo s ex Q (stop st id) := by
  unfold stop
  simp only
  split
  · rename_i hr
    exact mark_inv h id { st.entries id with running := false, removed := true } (lt_next_of_running h hr) rfl (fun h => by cases h)
      ⟨(h.ok id).clock, (h.ok id).due, (h.ok id).period, (h.ok id).random, fun h => by cases h⟩ ex (Or.inl rfl)
  · exact h

theorem cbStep_inv {R lo s ex Q st} (h : Inv R lo s ex Q st) (op : CbOp) (hop : CbOk op) : Inv R lo s ex Q (cbStep st op) := by
  have hub : Inv R lo s ex Q { st with ub := true } := ⟨h.1, h.2, h.3, h.4, h.5, h.6, h.7, h.8⟩
  match op with
  | .start rel pct p r => exact start_inv h rel pct p r hop.1 hop.2.1 hop.2.2
  | .stop id =>
    simp only [cbStep]
    split
    · exact stop_inv h id
    · exact hub
  | .change id rel pct p =>
    simp only [cbStep]
    split
    · rename_i hl
      exact change_inv h id rel pct p hop.1 hop.2 (lt_next_of_live h hl) ex (Or.inl rfl)
    · exact hub

theorem cbStep_frame (st : St) (op : CbOp) :
    (cbStep st op).tnow = st.tnow ∧ (cbStep st op).lastRun = st.lastRun ∧ (cbStep st op).log = st.log := by
  match op with
  | .start .. => exact ⟨rfl, rfl, rfl⟩
  | .stop id =>
    simp only [cbStep, stop]
    split
    · split <;> exact ⟨rfl, rfl, rfl⟩
    · exact ⟨rfl, rfl, rfl⟩
  | .change .. =>
    simp only [cbStep]
    split <;> exact ⟨rfl, rfl, rfl⟩

theorem foldl_inv {R lo s ex Q} (ops : List CbOp) : ∀ {st}, Inv R lo s ex Q st → (∀ op ∈ ops, CbOk op) →
    Inv R lo s ex Q (ops.foldl cbStep st) := by
  induction ops with
  | nil => intro st h _; exact h
  | cons op ops ih =>
    intro st h hok
    exact ih (cbStep_inv h op (hok op (by simp))) (fun o ho => hok o (by simp [ho]))

theorem foldl_frame (ops : List CbOp) : ∀ st, (ops.foldl cbStep st).tnow = st.tnow ∧
    (ops.foldl cbStep st).lastRun = st.lastRun ∧ (ops.foldl cbStep st).log = st.log := by
  induction ops with
  | nil => intro st; exact ⟨rfl, rfl, rfl⟩
  | cons op ops ih =>
    intro st
    have h1 := ih (cbStep st op)
    have h2 := cbStep_frame st op
    exact ⟨h1.1.trans h2.1, h1.2.1.trans h2.2.1, h1.2.2.trans h2.2.2⟩

theorem fire_inv {R lo s Q st} (env : Env) (henv : EnvOk env) (id : Nat) (h : Inv R lo s (some id) Q st)
    (hdue : (st.entries id).due ≤ st.tnow) : Inv R lo s none Q (fire env st id) := by
  have h0 : Inv R lo s (some id) Q (record st id) :=
    ⟨h.1, h.2, h.3, h.4, h.5, h.6, by
      intro f hf
      rcases List.mem_cons.1 hf with rfl | hf
      · exact hdue
      · exact h.early f hf, h.8⟩
  unfold fire
  simp only
  generalize record st id = st1 at h0 ⊢
  have h2 := foldl_inv (env.cb st1 id) h0 (henv.1 st1 id)
  generalize (env.cb st1 id).foldl cbStep st1 = st2 at h2 ⊢
  by_cases hr : (st2.entries id).running = true
  · rw [if_pos hr]
    have hid := lt_next_of_running h2 hr
    by_cases hp : (st2.entries id).period ≠ 0
    · rw [if_pos hp]
      have h3 : Inv R lo s (some id) Q (setEntry st2 id { st2.entries id with random := env.random st2 }) :=
        mark_inv h2 id { st2.entries id with random := env.random st2 } hid rfl (fun h => h)
          ⟨(h2.ok id).clock, (h2.ok id).due, (h2.ok id).period, henv.2 st2, (h2.ok id).flags⟩ _ (Or.inl rfl)
      exact change_inv h3 id _ _ true (by omega) (h2.ok id).period hid none (Or.inr ⟨rfl, rfl⟩)
    · rw [if_neg hp]
      unfold stop
      simp only
      rw [if_pos hr]
      exact mark_inv h2 id { st2.entries id with running := false, removed := true } hid rfl (fun h => by cases h)
        ⟨(h2.ok id).clock, (h2.ok id).due, (h2.ok id).period, (h2.ok id).random, fun h => by cases h⟩ none
        (Or.inr ⟨rfl, rfl, rfl⟩)
  · rw [if_neg hr]
    refine ⟨h2.1, h2.2, h2.3, h2.4, h2.5, ?_, h2.7, h2.8⟩
    intro hR i hi _ hd
    refine h2.late hR i hi ?_ hd
    intro e; injection e with e; subst e; exact hr hi

theorem stop_frame (st : St) (id : Nat) : (stop st id).tnow = st.tnow ∧ (stop st id).lastRun = st.lastRun := by
  unfold stop; simp only; split <;> exact ⟨rfl, rfl⟩

theorem fire_frame (env : Env) (st : St) (id : Nat) :
    (fire env st id).tnow = st.tnow ∧ (fire env st id).lastRun = st.lastRun := by
  unfold fire
  simp only
  generalize hst1 : record st id = st1
  have h1 : st1.tnow = st.tnow ∧ st1.lastRun = st.lastRun := by subst hst1; exact ⟨rfl, rfl⟩
  obtain ⟨h2, h3, _⟩ := foldl_frame (env.cb st1 id) st1
  generalize (env.cb st1 id).foldl cbStep st1 = st2 at h2 h3 ⊢
  split
  · split
    · exact ⟨h2.trans h1.1, h3.trans h1.2⟩
    · have := stop_frame st2 id
      exact ⟨this.1.trans (h2.trans h1.1), this.2.trans (h3.trans h1.2)⟩
  · exact ⟨h2.trans h1.1, h3.trans h1.2⟩

/-- parking the head of a slot on the temporary list -/
theorem park_inv {R lo s Q st} (h : Inv R lo s none Q st) (id : Nat) (l : List Nat) (hw : st.wheel s = id :: l) :
    Inv R lo s (some id) Q (park st id) where
  wheelSlot := by
    intro k i hi
    simp only [park, unlink, List.mem_filter] at hi
    exact h.wheelSlot k i hi.1
  tmpSlot := by
    intro i hi
    simp only [park, unlink, List.mem_cons, List.mem_filter] at hi
    rcases hi with rfl | hi
    · exact h.wheelSlot s i (by rw [hw]; simp)
    · exact h.tmpSlot i hi.1
  fresh := h.fresh
  ok := h.ok
  onList := by
    intro i hr
    simp only [park, unlink, List.mem_cons, List.mem_filter]
    by_cases e : i = id
    · right; left; exact e
    · rcases h.onList i hr with h1 | h1
      · left; exact ⟨h1, by simp [e]⟩
      · right; right; exact ⟨h1, by simp [e]⟩
  late := by
    intro hR i hr hne hd
    have e : i ≠ id := fun e => hne (by rw [e])
    obtain ⟨h1, h2⟩ := h.late hR i hr (by simp) hd
    refine ⟨?_, h2⟩
    simp only [park, unlink, List.mem_filter]
    exact ⟨h1, by simp [e]⟩
  early := h.early
  recent := h.recent

/-- dropping the exclusion for a timer that is stopped or not yet due -/
theorem unex_inv {R lo s Q st} (id : Nat) (h : Inv R lo s (some id) Q st)
    (hc : R → (st.entries id).running = true → st.tnow < (st.entries id).due) : Inv R lo s none Q st := by
  refine ⟨h.1, h.2, h.3, h.4, h.5, ?_, h.7, h.8⟩
  intro hR i hi _ hd
  refine h.late hR i hi ?_ hd
  intro e; injection e with e; subst e
  have := hc hR hi; omega

theorem not_timedOut_of_future (tnow due : Nat) (h1 : tnow < due) (h2 : due < tnow + H) :
    isTimedOut (tnow % W) (due % W) = false := by
  refine Bool.eq_false_iff.2 fun h => ?_
  have := (C07_expired_iff (tnow % W) (due % W) (by omega) (by omega)).1 h
  omega

theorem timedOut_of_past (tnow due : Nat) (h1 : due ≤ tnow) (h2 : tnow < due + H) :
    isTimedOut (tnow % W) (due % W) = true := by
  refine (C07_expired_iff (tnow % W) (due % W) (by omega) (by omega)).2 ?_
  omega

/-- one slot: afterwards nothing in the slot is overdue -/
theorem walkSlot_inv {R : Prop} {lo s : Nat} {Q : Nat → Prop} (env : Env) (henv : EnvOk env) (fuel : Nat) : ∀ st,
    Inv R lo s none Q st → ∀ st', walkSlot env s fuel st = some st' →
      Inv R lo s none (fun k => Q k ∧ k ≠ s) st' ∧ st'.tmp = [] ∧ st'.tnow = st.tnow ∧ st'.lastRun = st.lastRun := by
  induction fuel with
  | zero => intro st _ st' h; cases h
  | succ fuel ih =>
    intro st hinv st' hst'
    rw [walkSlot] at hst'
    split at hst'
    · rename_i hnil
      injection hst' with hst'
      subst hst'
      refine ⟨⟨?_, ?_, hinv.fresh, hinv.ok, ?_, ?_, hinv.early, hinv.recent⟩, rfl, rfl, rfl⟩
      · intro k i hi
        simp only at hi
        split at hi
        · rename_i e; subst e; exact hinv.tmpSlot i hi
        · exact hinv.wheelSlot k i hi
      · intro i hi; cases hi
      · intro i hr
        left
        simp only at hr ⊢
        rcases hinv.onList i hr with h1 | h1
        · split
          · rename_i e; rw [e, hnil] at h1; cases h1
          · exact h1
        · rw [if_pos (hinv.tmpSlot i h1).1]; exact h1
      · intro hR i hr hne hd
        obtain ⟨h1, h2⟩ := hinv.late hR i hr hne hd
        simp only
        by_cases e : (st.entries i).due % 1024 = s
        · rw [e, hnil] at h1; cases h1
        · rw [if_neg e]; exact ⟨h1, h2, e⟩
    · rename_i id l hl
      have hp := park_inv hinv id l hl
      simp only at hst'
      generalize hst2 : park st id = st2 at hst' hp
      have htn : st2.tnow = st.tnow := by subst hst2; rfl
      have hlr : st2.lastRun = st.lastRun := by subst hst2; rfl
      by_cases hrem : (st2.entries id).removed = true
      · rw [if_pos hrem] at hst'
        have hni := unex_inv id hp (by
          intro _ hr
          have := (hp.ok id).flags hr
          rw [hrem] at this; cases this)
        have := ih st2 hni st' hst'
        rw [htn, hlr] at this; exact this
      · rw [if_neg hrem] at hst'
        by_cases hto : isTimedOut st2.now (st2.entries id).clock = true
        · rw [if_pos hto] at hst'
          have hdue : (st2.entries id).due ≤ st2.tnow := by
            refine Nat.le_of_not_lt fun hlt => ?_
            have := not_timedOut_of_future _ _ hlt (hp.ok id).due
            rw [(hp.ok id).clock, St.now, this] at hto; cases hto
          have hf := fire_inv env henv id hp hdue
          have hfr := fire_frame env st2 id
          have := ih _ hf st' hst'
          rw [hfr.1, hfr.2, htn, hlr] at this; exact this
        · rw [if_neg hto] at hst'
          have hni := unex_inv id hp (by
            intro hR hr
            refine Nat.lt_of_not_le fun hle => hto ?_
            rw [(hp.ok id).clock]
            obtain ⟨h1, h2, h3⟩ := hp.recent hR
            have := h3 id hr
            exact timedOut_of_past _ _ hle (by omega))
          have := ih st2 hni st' hst'
          rw [htn, hlr] at this; exact this

/-- the slots visited by the outer loop from `k` up to (excluding) `e` -/
def Ahead (k e : Nat) (slot : Nat) : Prop := ∃ j, k ≤ j ∧ j < e ∧ j % 1024 = slot

theorem Inv.mono {R lo s s' Q Q' st} (h : Inv R lo s none Q st) (htmp : st.tmp = [])
    (hQ : R → ∀ id, (st.entries id).running = true → (st.entries id).due ≤ st.tnow →
      Q ((st.entries id).due % 1024) → Q' ((st.entries id).due % 1024)) : Inv R lo s' none Q' st :=
  ⟨h.1, (by rw [htmp]; intro i hi; simp at hi), h.3, h.4, h.5,
    fun hR i hr hne hd => ⟨(h.late hR i hr hne hd).1, hQ hR i hr hd (h.late hR i hr hne hd).2⟩, h.7, h.8⟩

theorem Inv.lastRun {R lo s ex Q st} (h : Inv R lo s ex Q st) (l : Nat) : Inv R lo s ex Q { st with lastRun := l } :=
  ⟨h.1, h.2, h.3, h.4, h.5, h.6, h.7, h.8⟩

/-- without time tracking: the walk keeps the invariant -/
theorem walkLoop_inv {lo} {Q : Nat → Prop} (env : Env) (henv : EnvOk env) (fuel : Nat) (n : Nat) : ∀ st,
    st.tmp = [] → Inv False lo 0 none Q st → ∀ st', walkLoop env fuel n st = some st' →
      Inv False lo 0 none Q st' ∧ st'.tmp = [] ∧ st'.tnow = st.tnow := by
  induction n with
  | zero => intro st ht h st' hs; injection hs with hs; subst hs; exact ⟨h, ht, rfl⟩
  | succ n ih =>
    intro st ht h st' hs
    rw [walkLoop] at hs
    split at hs
    · split at hs
      · cases hs
      · rename_i st1 hw
        have h1 : Inv False lo (st.lastRun % 1024) none Q st := h.mono ht (fun h => h.elim)
        obtain ⟨h2, h3, h4, h5⟩ := walkSlot_inv env henv fuel st h1 st1 hw
        have h6 : Inv False lo 0 none Q { st1 with lastRun := (st1.lastRun + 1) % W } :=
          ((h2.mono (s' := 0) (Q' := Q) h3 (fun h => h.elim))).lastRun _
        have := ih { st1 with lastRun := (st1.lastRun + 1) % W } h3 h6 st' hs
        exact ⟨this.1, this.2.1, this.2.2.trans h4⟩
    · injection hs with hs; subst hs; exact ⟨h, ht, rfl⟩

/-- with time tracking, before the clock wraps: after the walk nothing is overdue -/
theorem walkLoop_late {lo} (env : Env) (henv : EnvOk env) (fuel : Nat) (n : Nat) : ∀ st e,
    st.tmp = [] → st.tnow + 1 < W → e = st.lastRun + n →
    Inv True lo 0 none (Ahead st.lastRun (min (st.tnow + 1) e)) st →
    ∀ st', walkLoop env fuel n st = some st' →
      Inv True lo 0 none (fun _ => False) st' ∧ st'.tmp = [] ∧ st'.tnow = st.tnow := by
  induction n with
  | zero =>
    intro st e ht hn he h st' hs
    injection hs with hs; subst hs
    refine ⟨h.mono ht ?_, ht, rfl⟩
    rintro - id hr hd ⟨j, h1, h2, h3⟩
    omega
  | succ n ih =>
    intro st e ht hn he h st' hs
    rw [walkLoop] at hs
    have hnow : st.now = st.tnow := by unfold St.now; omega
    rw [hnow] at hs
    split at hs
    · rename_i hle
      split at hs
      · cases hs
      · rename_i st1 hw
        have h1 : Inv True lo (st.lastRun % 1024) none (Ahead st.lastRun (min (st.tnow + 1) e)) st := h.mono ht (fun _ _ _ _ h => h)
        obtain ⟨h2, h3, h4, h5⟩ := walkSlot_inv env henv fuel st h1 st1 hw
        have hl : (st1.lastRun + 1) % W = st.lastRun + 1 := by rw [h5]; omega
        have h6 : Inv True lo 0 none (Ahead (st.lastRun + 1) (min (st.tnow + 1) e)) st1 := by
          refine h2.mono h3 ?_
          rintro - id hr hd ⟨⟨j, a, b, c⟩, hne⟩
          refine ⟨j, ?_, b, c⟩
          have : j ≠ st.lastRun := by intro hj; rw [hj] at c; exact hne c.symm
          omega
        have h7 := h6.lastRun (st.lastRun + 1)
        rw [← h4] at h7
        rw [hl] at hs
        have := ih { st1 with lastRun := st.lastRun + 1 } e h3 (by show st1.tnow + 1 < W; omega)
          (by show e = st.lastRun + 1 + n; omega) h7 st' hs
        exact ⟨this.1, this.2.1, this.2.2.trans h4⟩
    · rename_i hle
      injection hs with hs; subst hs
      refine ⟨h.mono ht ?_, ht, rfl⟩
      rintro - id hr hd ⟨j, h1, h2, h3⟩
      omega

theorem cleanup_inv {R lo s Q st} (h : Inv R lo s none Q st) : Inv R lo s none Q (cleanup st) := by
  have hne : ∀ i, (st.entries i).running = true → (st.entries i).removed = false := fun i => (h.ok i).flags
  refine ⟨?_, ?_, ?_, ?_, ?_, ?_, h.early, ?_⟩
  · intro k i hi
    simp only [cleanup, List.mem_filter, Bool.not_eq_true'] at hi ⊢
    rw [hi.2]; exact h.wheelSlot k i hi.1
  · intro i hi
    simp only [cleanup, List.mem_filter, Bool.not_eq_true'] at hi ⊢
    rw [hi.2]; exact h.tmpSlot i hi.1
  · intro i hi
    have hi : st.next ≤ i := hi
    simp only [cleanup]
    rw [h.fresh i hi]; rfl
  · intro i
    simp only [cleanup]
    split
    · exact dead_ok _
    · exact h.ok i
  · intro i hr
    simp only [cleanup] at hr ⊢
    split at hr
    · cases hr
    · rename_i hrem
      have hrem := Bool.eq_false_iff.2 hrem
      rw [hrem]
      simp only [List.mem_filter, Bool.not_eq_true', Bool.false_eq_true, if_false]
      rcases h.onList i hr with h1 | h1
      · exact Or.inl ⟨h1, hrem⟩
      · exact Or.inr ⟨h1, hrem⟩
  · intro hR i hr hx hd
    simp only [cleanup] at hr hd ⊢
    split at hr
    · cases hr
    · rename_i hrem
      have hrem := Bool.eq_false_iff.2 hrem
      rw [hrem] at hd ⊢
      simp only [List.mem_filter, Bool.not_eq_true', Bool.false_eq_true, if_false] at hd ⊢
      have := h.late hR i hr hx hd
      exact ⟨⟨this.1, hrem⟩, this.2⟩
  · intro hR
    obtain ⟨h1, h2, h3⟩ := h.recent hR
    refine ⟨h1, h2, ?_⟩
    intro i hr
    simp only [cleanup] at hr ⊢
    split at hr
    · cases hr
    · rename_i hrem
      rw [if_neg hrem]
      exact h3 i hr

end Verif.Timer
