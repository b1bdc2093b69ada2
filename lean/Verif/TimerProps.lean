import Verif.TimerFire

/-!
# C08: timers fire neither early nor lost
-/

namespace Verif.Timer

open Verif.SchedTime

/-- operations used properly: delays from 1 ms to 2^31 - 1 ms, `olsr_random()` in its documented range -/
def OpOk : Op → Prop
  | .call op => CbOk op
  | .walk env => EnvOk env
  | _ => True

/-- what the ghost field `due` means: a timer started (or changed) at true time `T` with delay `rel` and
jitter `pct` percent is due at most `pct` percent before `T + rel`, never after it and not before
`T + 1`; and the 32-bit value the code stores is that time modulo 2^32. -/
theorem C08_expiry_time (st : St) (rel pct random : Nat) (p : Bool) (hop : CbOk (.start rel pct p random)) :
    ∃ t, (start st rel pct p random).entries st.next = t ∧ t.running = true ∧
      t.clock = t.due % 2 ^ 32 ∧ st.tnow + 1 ≤ t.due ∧ t.due ≤ st.tnow + rel ∧
      100 * (st.tnow + rel - t.due) ≤ pct * rel := by
  refine ⟨_, rfl, ?_⟩
  obtain ⟨delay, h1, h2, h3, h4⟩ := C09_jitter_bounds (st.tnow % W) rel pct random (by have := hop.2.1; omega) hop.2.2
  have h4 := h4 hop.1
  have hlt := hop.2.1
  have hd : dueOf st.tnow (calcJitter st.now rel pct random) = st.tnow + delay := by
    unfold St.now; rw [h1]; unfold dueOf; omega
  have hc : calcJitter st.now rel pct random = (st.tnow + delay) % W := by
    unfold St.now; rw [h1]; omega
  simp only [start, addToSlot, setEntry, if_true]
  rw [hd, hc]
  refine ⟨trivial, by omega, by omega, by omega, ?_⟩
  have : st.tnow + rel - (st.tnow + delay) = rel - delay := by omega
  rw [this]; exact h3

private theorem init_inv (R : Prop) (t : Nat) (Q) : Inv R t 0 none Q (St.init t) where
  wheelSlot := fun _ _ h => by cases h
  tmpSlot := fun _ h => by cases h
  fresh := fun _ _ => rfl
  ok := fun _ => dead_ok _
  onList := fun _ h => by cases h
  late := fun _ _ h => by cases h
  early := fun _ h => by cases h
  recent := fun _ => ⟨Nat.le_refl _, by show t < t + H; omega, fun _ h => by cases h⟩

private theorem advance_inv {lo Q} {st : St} (h : Inv False lo 0 none Q st) (d : Nat) :
    Inv False lo 0 none Q { st with tnow := st.tnow + d } :=
  ⟨h.1, h.2, h.3, fun i => ⟨(h.ok i).clock, by have := (h.ok i).due; show (st.entries i).due < st.tnow + d + H; omega,
    (h.ok i).period, (h.ok i).random, (h.ok i).flags⟩, h.5, fun h => h.elim, h.7, fun h => h.elim⟩

private theorem early_run (fuel : Nat) (ops : List Op) : ∀ st, st.tmp = [] → Inv False 0 0 none (fun _ => True) st →
    (∀ op ∈ ops, OpOk op) → ∀ st', run fuel st ops = some st' → Inv False 0 0 none (fun _ => True) st' := by
  induction ops with
  | nil => intro st _ h _ st' hs; injection hs with hs; subst hs; exact h
  | cons op ops ih =>
    intro st ht h hok st' hs
    rw [run] at hs
    have hop := hok op (by simp)
    have hok' : ∀ op ∈ ops, OpOk op := fun o ho => hok o (by simp [ho])
    match op with
    | .call op =>
      refine ih _ ?_ (cbStep_inv h op hop) hok' st' hs
      have := cbStep_inv (Q := fun _ => True) h op hop
      match op with
      | .start .. => exact ht
      | .stop id => simp only [cbStep, stop]; split <;> (try split) <;> exact ht
      | .change .. => simp only [cbStep]; split <;> simp [change, addToSlot, unlink, setEntry, ht]
    | .advance d => exact ih { st with tnow := st.tnow + d } ht (advance_inv h d) hok' st' hs
    | .walk env =>
      simp only [step, walk] at hs
      cases hw : walkLoop env fuel 1024 st with
      | none => rw [hw] at hs; cases hs
      | some st1 =>
        rw [hw] at hs
        simp only [Option.map_some] at hs
        obtain ⟨h1, h2, h3⟩ := walkLoop_inv env hop fuel 1024 st ht h st1 hw
        exact ih { st1 with lastRun := st1.now } h2 (h1.lastRun _) hok' st' hs
    | .cleanup =>
      refine ih _ ?_ (cleanup_inv h) hok' st' hs
      simp [cleanup, ht]

/-- **C08, not early.**  In every run of the timer service – any timer calls from outside or from
callbacks, the clock advancing by arbitrary amounts (including across the 32-bit wrap), walks and
cleanups at arbitrary times – no callback is invoked before its timer's expiry time. -/
theorem C08_never_early (fuel t : Nat) (ops : List Op) (hok : ∀ op ∈ ops, OpOk op) (st : St)
    (hrun : run fuel (St.init t) ops = some st) : ∀ f ∈ st.log, f.due ≤ f.at_ :=
  (early_run fuel ops (St.init t) rfl
    ⟨fun _ _ h => (by cases h), fun _ h => (by cases h), fun _ _ => rfl, fun _ => dead_ok _, fun _ h => (by cases h),
      fun h => h.elim, fun _ h => (by cases h), fun h => h.elim⟩ hok st hrun).early

/-- the 32-bit clock does not wrap, and consecutive timer walks are less than 2^31 ms apart -/
def Timely (tnow lastWalk : Nat) : List Op → Prop
  | [] => True
  | .advance d :: ops => tnow + d + 1 < 2 ^ 32 ∧ tnow + d < lastWalk + 2 ^ 31 ∧ Timely (tnow + d) lastWalk ops
  | .walk _ :: ops => Timely tnow tnow ops
  | .call _ :: ops => Timely tnow lastWalk ops
  | .cleanup :: ops => Timely tnow lastWalk ops

/-- state between walks -/
private structure Between (st : St) : Prop where
  inv : Inv True st.lastRun 0 none (fun _ => True) st
  tmp : st.tmp = []
  nowrap : st.tnow + 1 < W

private theorem walk_between {st st' : St} (h : Between st) (env : Env) (henv : EnvOk env) (fuel : Nat)
    (hw : walk env fuel st = some st') :
    Between st' ∧ st'.tnow = st.tnow ∧ st'.lastRun = st.tnow ∧
      ∀ id, (st'.entries id).running = true → st'.tnow < (st'.entries id).due := by
  simp only [walk] at hw
  cases hl : walkLoop env fuel 1024 st with
  | none => rw [hl] at hw; cases hw
  | some st1 =>
    rw [hl] at hw
    simp only [Option.map_some, Option.some.injEq] at hw
    obtain ⟨hr1, hr2, hr3⟩ := h.inv.recent trivial
    have h1 : Inv True st.lastRun 0 none (Ahead st.lastRun (min (st.tnow + 1) (st.lastRun + 1024))) st := by
      refine h.inv.mono h.tmp ?_
      intro _ id hr hd _
      have hlo := hr3 id hr
      refine ⟨st.lastRun + ((st.entries id).due - st.lastRun) % 1024, by omega, ?_, by omega⟩
      have : ((st.entries id).due - st.lastRun) % 1024 ≤ (st.entries id).due - st.lastRun := Nat.mod_le _ _
      omega
    obtain ⟨h2, h3, h4⟩ := walkLoop_late env henv fuel 1024 st _ h.tmp h.nowrap rfl h1 st1 hl
    have hnow : st1.now = st1.tnow := by have := h.nowrap; unfold St.now; omega
    have hlate : ∀ id, (st1.entries id).running = true → st1.tnow < (st1.entries id).due := by
      intro id hr
      refine Nat.lt_of_not_le fun hle => ?_
      exact (h2.late trivial id hr (by simp) hle).2
    subst hw
    refine ⟨⟨?_, h3, by show st1.tnow + 1 < W; rw [h4]; exact h.nowrap⟩, h4, by show st1.now = st.tnow; rw [hnow, h4], hlate⟩
    have h5 := (h2.mono (s' := 0) (Q' := fun _ => True) h3 (fun _ _ _ _ h => h.elim)).lastRun st1.now
    refine ⟨h5.1, h5.2, h5.3, h5.4, h5.5, h5.6, h5.7, ?_⟩
    intro _
    show st1.now ≤ st1.tnow ∧ st1.tnow < st1.now + H ∧ _
    rw [hnow]
    exact ⟨Nat.le_refl _, by omega, fun id hr => Nat.le_of_lt (hlate id hr)⟩

private theorem late_run (fuel : Nat) (ops : List Op) : ∀ st, Between st → (∀ op ∈ ops, OpOk op) →
    Timely st.tnow st.lastRun ops → ∀ st', run fuel st ops = some st' → Between st' := by
  induction ops with
  | nil => intro st h _ _ st' hs; injection hs with hs; subst hs; exact h
  | cons op ops ih =>
    intro st h hok htm st' hs
    rw [run] at hs
    have hop := hok op (by simp)
    have hok' : ∀ op ∈ ops, OpOk op := fun o ho => hok o (by simp [ho])
    match op with
    | .call op =>
      have hf := cbStep_frame st op
      have h1 := cbStep_inv h.inv op hop
      refine ih (cbStep st op) ⟨by rw [hf.2.1]; exact h1, ?_, by rw [hf.1]; exact h.nowrap⟩ hok'
        (by rw [hf.1, hf.2.1]; exact htm) st' hs
      have ht := h.tmp
      match op with
      | .start .. => exact ht
      | .stop id => simp only [cbStep, stop]; split <;> (try split) <;> exact ht
      | .change .. => simp only [cbStep]; split <;> simp [change, addToSlot, unlink, setEntry, ht]
    | .advance d =>
      obtain ⟨t1, t2, t3⟩ := htm
      obtain ⟨hr1, hr2, hr3⟩ := h.inv.recent trivial
      refine ih { st with tnow := st.tnow + d } ⟨?_, h.tmp, by show st.tnow + d + 1 < W; omega⟩ hok' t3 st' hs
      have hi := h.inv
      refine ⟨hi.1, hi.2, hi.3, fun i => ⟨(hi.ok i).clock, by have := (hi.ok i).due; show (st.entries i).due < st.tnow + d + H; omega,
        (hi.ok i).period, (hi.ok i).random, (hi.ok i).flags⟩, hi.5, ?_, hi.7, ?_⟩
      · intro _ id hr _ _
        refine ⟨?_, trivial⟩
        rcases hi.onList id hr with h1 | h1
        · exact h1
        · rw [h.tmp] at h1; cases h1
      · intro _
        exact ⟨by show st.lastRun ≤ st.tnow + d; omega, by show st.tnow + d < st.lastRun + H; omega, hr3⟩
    | .walk env =>
      simp only [step] at hs
      cases hw : walk env fuel st with
      | none => rw [hw] at hs; cases hs
      | some st1 =>
        rw [hw] at hs
        obtain ⟨h1, h2, h3, _⟩ := walk_between h env hop fuel hw
        refine ih st1 h1 hok' ?_ st' hs
        rw [h2, h3]; exact htm
    | .cleanup =>
      refine ih (cleanup st) ⟨cleanup_inv h.inv, ?_, h.nowrap⟩ hok' htm st' hs
      simp [cleanup, h.tmp]

private theorem run_append (fuel : Nat) (ops ops2 : List Op) : ∀ st,
    run fuel st (ops ++ ops2) = (run fuel st ops).bind (fun st => run fuel st ops2) := by
  induction ops with
  | nil => intro st; rfl
  | cons op ops ih =>
    intro st
    simp only [List.cons_append, run]
    cases step fuel st op with
    | none => rfl
    | some st1 => exact ih st1

/-- **C08, not lost (partial).**  Full claim: after a timer walk at time `t` no running timer with expiry
at or before `t` remains.  Proved for every history of timer calls, clock advances, walks and cleanups
in which the 32-bit clock does not wrap (49.7 days) and walks are less than 2^31 ms apart; missing is
the wrap itself, where the claim is false (`C08_lost_at_clock_wrap`). -/
theorem C08_none_overdue_after_walk_partial (fuel t : Nat) (ops : List Op) (env : Env)
    (hok : ∀ op ∈ ops ++ [.walk env], OpOk op) (ht : t + 1 < 2 ^ 32) (htimely : Timely t t ops)
    (st : St) (hrun : run fuel (St.init t) (ops ++ [.walk env]) = some st) :
    ∀ id, (st.entries id).running = true → st.tnow < (st.entries id).due := by
  rw [run_append] at hrun
  cases h1 : run fuel (St.init t) ops with
  | none => rw [h1] at hrun; cases hrun
  | some st1 =>
    rw [h1] at hrun
    have hlr : (St.init t).lastRun = t := by show t % W = t; omega
    have hb : Between st1 := late_run fuel ops (St.init t)
      ⟨by rw [hlr]; exact init_inv True t _, rfl, by show t + 1 < W; omega⟩
      (fun o ho => hok o (by simp [ho])) (by rw [hlr]; exact htimely) st1 h1
    have hrun : run fuel st1 [.walk env] = some st := hrun
    simp only [run, step] at hrun
    cases hw : walk env fuel st1 with
    | none => rw [hw] at hrun; cases hrun
    | some st2 =>
      rw [hw] at hrun
      injection hrun with hrun
      subst hrun
      exact (walk_between hb env (hok (.walk env) (by simp)) fuel hw).2.2.2

/-- a callback that starts another timer and stops a third one -/
def exEnv : Env := { cb := fun _ id => if id = 0 then [.start 30 0 false 0, .stop 2] else [], random := fun _ => 7 }

def exOps : List Op :=
  [.call (.start 10 0 true 1), .call (.start 2000 50 false 99), .call (.start 10 0 false 5), .advance 25]

theorem exEnv_ok : EnvOk exEnv := by
  refine ⟨?_, fun _ => by show 7 ≤ 2147483647; omega⟩
  intro st id op h
  simp only [exEnv] at h
  split at h
  · simp only [List.mem_cons, List.mem_nil_iff, or_false] at h
    rcases h with rfl | rfl
    · exact ⟨by omega, by omega, by omega⟩
    · trivial
  · cases h

/-- the hypotheses are met by a run in which timer 0 fires once (and is re-armed for 35), its callback
stops timer 2, and timer 1 and the new timer 3 are left waiting -/
example : (∀ op ∈ exOps ++ [.walk exEnv], OpOk op) ∧ Timely 0 0 exOps ∧
    (run 100 (St.init 0) (exOps ++ [.walk exEnv])).any (fun st =>
      st.log = [⟨0, 10, 25⟩] ∧ (st.entries 0).due = 35 ∧ (st.entries 1).running ∧ (st.entries 2).running = false ∧
      (st.entries 3).due = 55) = true := by
  refine ⟨?_, ?_, by decide +kernel⟩
  · intro op h
    simp only [exOps, List.cons_append, List.nil_append, List.mem_cons, List.mem_nil_iff, or_false] at h
    rcases h with rfl | rfl | rfl | rfl | rfl
    · exact ⟨by omega, by omega, by omega⟩
    · exact ⟨by omega, by omega, by omega⟩
    · exact ⟨by omega, by omega, by omega⟩
    · trivial
    · exact exEnv_ok
  · refine ⟨by omega, by omega, trivial⟩

private theorem once_run (fuel : Nat) (ops : List Op) : ∀ st, st.tmp = [] → Inv False 0 0 none (fun _ => True) st →
    Once none st → (∀ op ∈ ops, OpOk op) → ∀ st', run fuel st ops = some st' → Once none st' := by
  induction ops with
  | nil => intro st _ _ h _ st' hs; injection hs with hs; subst hs; exact h
  | cons op ops ih =>
    intro st ht h ho hok st' hs
    rw [run] at hs
    have hop := hok op (by simp)
    have hok' : ∀ op ∈ ops, OpOk op := fun o ho => hok o (by simp [ho])
    match op with
    | .call op =>
      refine ih _ ?_ (cbStep_inv h op hop) (cbStep_once h ho op hop) hok' st' hs
      match op with
      | .start .. => exact ht
      | .stop id => simp only [cbStep, stop]; split <;> (try split) <;> exact ht
      | .change .. => simp only [cbStep]; split <;> simp [change, addToSlot, unlink, setEntry, ht]
    | .advance d =>
      refine ih { st with tnow := st.tnow + d } ht (advance_inv h d) ⟨ho.1, ?_, ho.3⟩ hok' st' hs
      intro f hf
      obtain ⟨a, b, c, e⟩ := ho.logged f hf
      exact ⟨a, b, by show f.at_ ≤ st.tnow + d; omega, e⟩
    | .walk env =>
      simp only [step, walk] at hs
      cases hw : walkLoop env fuel 1024 st with
      | none => rw [hw] at hs; cases hs
      | some st1 =>
        rw [hw] at hs
        simp only [Option.map_some] at hs
        obtain ⟨h1, h2, h3⟩ := walkLoop_inv env hop fuel 1024 st ht h st1 hw
        have o1 := walkLoop_once env hop fuel 1024 st ht h ho st1 hw
        exact ih { st1 with lastRun := st1.now } h2 (h1.lastRun _) ⟨o1.1, o1.2, o1.3⟩ hok' st' hs
    | .cleanup =>
      refine ih _ ?_ (cleanup_inv h) (cleanup_once ho) hok' st' hs
      simp [cleanup, ht]

/-- **C08, not twice.**  In every run no expiry of a timer leads to two callback invocations. -/
theorem C08_never_twice (fuel t : Nat) (ops : List Op) (hok : ∀ op ∈ ops, OpOk op) (st : St)
    (hrun : run fuel (St.init t) ops = some st) :
    st.log.Pairwise (fun a b => ¬ (a.id = b.id ∧ a.due = b.due)) :=
  (once_run fuel ops (St.init t) rfl
    ⟨fun _ _ h => (by cases h), fun _ h => (by cases h), fun _ _ => rfl, fun _ => dead_ok _, fun _ h => (by cases h),
      fun h => h.elim, fun _ h => (by cases h), fun h => h.elim⟩
    ⟨fun i h => (by rcases h with h | ⟨_, h⟩ | h <;> cases h), fun _ h => (by cases h), List.Pairwise.nil⟩ hok st hrun).nodup

/-- **C08, fired (partial).**  After a walk, every timer that was running and due before the walk, and that
no callback stopped or changed meanwhile, has had its callback invoked in this walk.  Same restriction
to runs without clock wrap as `C08_none_overdue_after_walk_partial`. -/
theorem C08_due_timer_fired_partial (fuel t : Nat) (ops : List Op) (env : Env) (id : Nat)
    (hok : ∀ op ∈ ops ++ [.walk env], OpOk op) (ht : t + 1 < 2 ^ 32) (htimely : Timely t t ops)
    (hu : Untouched env id) (st st' : St) (hrun : run fuel (St.init t) ops = some st)
    (hwalk : walk env fuel st = some st')
    (hr : (st.entries id).running = true) (hdue : (st.entries id).due ≤ st.tnow) :
    ⟨id, (st.entries id).due, st.tnow⟩ ∈ st'.log := by
  have hlr : (St.init t).lastRun = t := by show t % W = t; omega
  have hb : Between st := late_run fuel ops (St.init t)
    ⟨by rw [hlr]; exact init_inv True t _, rfl, by show t + 1 < W; omega⟩
    (fun o ho => hok o (by simp [ho])) (by rw [hlr]; exact htimely) st hrun
  have hw : Waiting id (st.entries id).due st := ⟨lt_next_of_running hb.inv hr, Or.inl ⟨hr, rfl⟩⟩
  obtain ⟨-, h2, -, h4⟩ := walk_between hb env (hok (.walk env) (by simp)) fuel hwalk
  simp only [walk] at hwalk
  cases hl : walkLoop env fuel 1024 st with
  | none => rw [hl] at hwalk; cases hwalk
  | some st1 =>
    rw [hl] at hwalk
    simp only [Option.map_some, Option.some.injEq] at hwalk
    have hw1 := walkLoop_waiting env hu fuel 1024 st hw st1 hl
    subst hwalk
    rcases hw1.2 with ⟨h5, h6⟩ | h5
    · have := h4 id h5
      have h7 : st1.tnow < (st1.entries id).due := this
      have h8 : st1.tnow = st.tnow := h2
      omega
    · have h8 : st1.tnow = st.tnow := h2
      rw [h8] at h5; exact h5

/-- in the run above timer 0 is due and not touched by the callbacks -/
example : Untouched exEnv 0 ∧ (run 100 (St.init 0) exOps).any (fun st =>
    (st.entries 0).running ∧ (st.entries 0).due ≤ st.tnow) = true := by
  refine ⟨?_, by decide +kernel⟩
  intro st i op h
  simp only [exEnv] at h
  split at h
  · simp only [List.mem_cons, List.mem_nil_iff, or_false] at h
    rcases h with rfl | rfl
    · exact ⟨by simp, by simp⟩
    · exact ⟨by simp, by simp⟩
  · cases h

/-- **C08 fails at the clock wrap**: with the last walk before the wrap and the next one after it, the
walk visits no slot at all (`*last_run <= now_times` is false) and an expired timer stays unfired. -/
theorem C08_lost_at_clock_wrap :
    (run 100 (St.init (2 ^ 32 - 10)) [.call (.start 5 0 false 0), .advance 12, .walk ⟨fun _ _ => [], fun _ => 0⟩]).any
      (fun st => (st.entries 0).running ∧ (st.entries 0).due ≤ st.tnow ∧ st.log = []) = true := by
  decide +kernel

/-! ### C46: re-arming from the callback -/

/-- **C46 is false for one-shot timers**: whatever delay a callback re-arms its own one-shot timer with,
the timer service stops the timer right after the callback returns. -/
theorem C46_oneshot_rearm_is_lost (env : Env) (st : St) (id rel pct : Nat)
    (hlive : (st.entries id).live = true)
    (hcb : ∀ st, env.cb st id = [.change id rel pct false]) :
    ((fire env st id).entries id).running = false := by
  unfold fire
  simp only [hcb, List.foldl_cons, List.foldl_nil, cbStep]
  have : ((record st id).entries id).live = true := hlive
  rw [if_pos this]
  by_cases hr : ((record st id).entries id).running = true
  · simp [change, addToSlot, unlink, setEntry, stop, hr]
  · have hr := Bool.eq_false_iff.2 hr
    simp [change, addToSlot, unlink, setEntry, hr]

/-- **C46 (partial).**  Full claim: a timer re-armed from its own callback fires again after the new
delay.  True if the callback re-arms it as a periodic timer: it stays running, with the new period, and
is next due within that period. -/
theorem C46_periodic_rearm_partial (env : Env) (henv : EnvOk env) (st : St) (id rel pct : Nat)
    (hlive : (st.entries id).live = true) (hrun : (st.entries id).running = true)
    (hrel : 1 ≤ rel) (hrel2 : rel < 2 ^ 31)
    (hcb : ∀ st, env.cb st id = [.change id rel pct true]) :
    ∃ t, (fire env st id).entries id = t ∧ t.running = true ∧ t.period = rel ∧
      st.tnow < t.due ∧ t.due ≤ st.tnow + rel := by
  refine ⟨_, rfl, ?_⟩
  have hl : ((record st id).entries id).live = true := hlive
  have hr : ((record st id).entries id).running = true := hrun
  have htn : (record st id).tnow = st.tnow := rfl
  unfold fire
  simp only [hcb, List.foldl_cons, List.foldl_nil, cbStep]
  rw [if_pos hl]
  generalize hst1 : change (record st id) id rel pct true = st1
  have e1 : (st1.entries id).running = true := by subst hst1; simp [change, addToSlot, unlink, setEntry, hr]
  have e2 : (st1.entries id).period = rel := by subst hst1; simp [change, addToSlot, unlink, setEntry]
  have e3 : st1.tnow = st.tnow := by subst hst1; rfl
  rw [if_pos e1, if_pos (by rw [e2]; omega), e2]
  have hrnd : (env.random st1) ≤ 2147483647 := henv.2 st1
  obtain ⟨-, h2, h3, -⟩ := dueOf_spec st.tnow rel (st1.entries id).pct (env.random st1) hrel (by omega) hrnd
  simp only [change, addToSlot, unlink, setEntry, if_true, St.now, e3]
  exact ⟨e1, trivial, h2, h3⟩

/-- the situations exist: a one-shot and a periodic timer, each re-arming itself for 50 ms -/
example :
    let env : Env := ⟨fun _ id => [.change id 50 0 (id == 1)], fun _ => 0⟩
    (run 100 (St.init 0) [.call (.start 10 0 false 0), .call (.start 10 0 true 0), .advance 10, .walk env]).any
      (fun st => (st.entries 0).running = false ∧ (st.entries 1).running ∧ (st.entries 1).due = 60 ∧
        st.log.length = 2) = true := by
  decide +kernel

end Verif.Timer
