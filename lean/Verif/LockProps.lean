import Verif.LockModel

/-!
# C150: the lock file and the daemons that run at the same time
-/

namespace Verif.Lock

/-- A state that a sequence of events leads to. -/
def Reach (s : Sys) : Prop := ∃ emul es, run (init emul) es = s

/-- What always holds. -/
private structure Inv (s : Sys) : Prop where
  own : ∀ i p, s.owner i = some p → s.fd p = some i
  hold : ∀ p, s.pc p = .running ∨ s.pc p = .leaving → s.emul p = true → ∃ i, s.fd p = some i ∧ s.owner i = some p
  fdlt : ∀ p i, s.fd p = some i → i < s.next
  plt : ∀ i, s.path = some i → i < s.next
  idle : ∀ p, (s.pc p = .off ∨ (∃ k, s.pc p = .opening k) ∨ (∃ k, s.pc p = .removing k) ∨ s.pc p = .unlinking) → s.fd p = none
  lockd : ∀ p k, s.pc p = .locking k → ∃ i, s.fd p = some i
  none' : ∀ p, s.emul p = false → s.fd p = none
  emu : ∀ p, s.emul p = false → s.pc p = .off ∨ s.pc p = .running ∨ s.pc p = .leaving ∨ s.pc p = .unlinking

private theorem upd_same {α : Type} (f : Nat → α) (p : Nat) (v : α) : upd f p v p = v := if_pos rfl

private theorem upd_other {α : Type} (f : Nat → α) (p q : Nat) (v : α) (h : q ≠ p) : upd f p v q = f q := if_neg h

/-- A change of `pc p` alone. -/
private theorem inv_pc {s : Sys} (h : Inv s) (p : Nat) (c : Pc)
    (h1 : c = .running ∨ c = .leaving → s.emul p = true → ∃ i, s.fd p = some i ∧ s.owner i = some p)
    (h2 : (c = .off ∨ (∃ k, c = .opening k) ∨ (∃ k, c = .removing k) ∨ c = .unlinking) → s.fd p = none)
    (h3 : ∀ k, c = .locking k → ∃ i, s.fd p = some i)
    (h4 : s.emul p = false → c = .off ∨ c = .running ∨ c = .leaving ∨ c = .unlinking) :
    Inv { s with pc := upd s.pc p c } := by
  refine ⟨h.own, fun q hq he => ?_, h.fdlt, h.plt, fun q hq => ?_, fun q k hq => ?_, h.none', fun q he => ?_⟩
  · by_cases e : q = p
    · subst e; simp only [upd_same] at hq; exact h1 hq he
    · simp only [upd_other _ _ _ _ e] at hq; exact h.hold q hq he
  · by_cases e : q = p
    · subst e; simp only [upd_same] at hq; exact h2 hq
    · simp only [upd_other _ _ _ _ e] at hq; exact h.idle q hq
  · by_cases e : q = p
    · subst e; simp only [upd_same] at hq; exact h3 k hq
    · simp only [upd_other _ _ _ _ e] at hq; exact h.lockd q k hq
  · by_cases e : q = p
    · subst e; simp only [upd_same]; exact h4 he
    · simp only [upd_other _ _ _ _ e]; exact h.emu q he

private theorem release_pc (s : Sys) (p : Nat) : (release s p).pc = s.pc := rfl

/-- `close`, and the new place of the daemon. -/
private theorem inv_release {s : Sys} (h : Inv s) (p : Nat) (c : Pc) (hc : c ≠ .running ∧ c ≠ .leaving ∧ ∀ k, c ≠ .locking k)
    (h4 : s.emul p = false → c = .off ∨ c = .running ∨ c = .leaving ∨ c = .unlinking) :
    Inv { release s p with pc := upd s.pc p c } := by
  unfold release
  refine ⟨fun i q hq => ?_, fun q hq he => ?_, fun q i hq => ?_, h.plt, fun q hq => ?_, fun q k hq => ?_, fun q he => ?_, fun q he => ?_⟩
  · simp only [] at hq ⊢
    split at hq
    · cases hq
    · next hn =>
      have e : q ≠ p := fun e => hn (e ▸ hq)
      rw [upd_other _ _ _ _ e]; exact h.own i q hq
  · simp only [] at hq he ⊢
    by_cases e : q = p
    · subst e; simp only [upd_same] at hq
      rcases hq with hq | hq
      · exact absurd hq hc.1
      · exact absurd hq hc.2.1
    · simp only [upd_other _ _ _ _ e] at hq ⊢
      obtain ⟨i, a, b⟩ := h.hold q hq he
      refine ⟨i, a, ?_⟩
      rw [b, if_neg (by simpa using e)]
  · simp only [] at hq ⊢
    by_cases e : q = p
    · subst e; rw [upd_same] at hq; cases hq
    · rw [upd_other _ _ _ _ e] at hq; exact h.fdlt q i hq
  · simp only [] at hq ⊢
    by_cases e : q = p
    · subst e; rw [upd_same]
    · simp only [upd_other _ _ _ _ e] at hq ⊢; exact h.idle q hq
  · simp only [] at hq ⊢
    by_cases e : q = p
    · subst e; rw [upd_same] at hq; exact absurd hq (hc.2.2 k)
    · rw [upd_other _ _ _ _ e] at hq ⊢; exact h.lockd q k hq
  · simp only [] at he ⊢
    by_cases e : q = p
    · subst e; rw [upd_same]
    · rw [upd_other _ _ _ _ e]; exact h.none' q he
  · simp only [] at he ⊢
    by_cases e : q = p
    · subst e; rw [upd_same]; exact h4 he
    · rw [upd_other _ _ _ _ e]; exact h.emu q he

private theorem inv_path {s : Sys} (h : Inv s) : Inv { s with path := none } :=
  ⟨h.own, h.hold, h.fdlt, fun i hi => (by cases hi), h.idle, h.lockd, h.none', h.emu⟩

/-- A daemon that takes a new file: no lock of it is held by this daemon. -/
private theorem inv_fd {s : Sys} (h : Inv s) (p i k : Nat) (hi : i < s.next) (hp : s.fd p = none) (he : s.emul p = true) :
    Inv { s with fd := upd s.fd p (some i), pc := upd s.pc p (.locking k) } := by
  have hown : ∀ j, s.owner j ≠ some p := fun j hj => by rw [h.own j p hj] at hp; cases hp
  refine ⟨fun j q hq => ?_, fun q hq hm => ?_, fun q j hq => ?_, h.plt, fun q hq => ?_, fun q k' hq => ?_, fun q hm => ?_, fun q hm => ?_⟩
  · by_cases e : q = p
    · subst e; exact absurd hq (hown j)
    · show upd s.fd p (some i) q = some j
      rw [upd_other _ _ _ _ e]; exact h.own j q hq
  · by_cases e : q = p
    · subst e; simp only [upd_same] at hq; rcases hq with hq | hq <;> cases hq
    · simp only [upd_other _ _ _ _ e] at hq ⊢; exact h.hold q hq hm
  · by_cases e : q = p
    · subst e; simp only [upd_same] at hq; cases hq; exact hi
    · simp only [upd_other _ _ _ _ e] at hq; exact h.fdlt q j hq
  · by_cases e : q = p
    · subst e; simp only [upd_same] at hq
      rcases hq with hq | ⟨_, hq⟩ | ⟨_, hq⟩ | hq <;> cases hq
    · simp only [upd_other _ _ _ _ e] at hq ⊢; exact h.idle q hq
  · by_cases e : q = p
    · subst e; exact ⟨i, upd_same _ _ _⟩
    · simp only [upd_other _ _ _ _ e] at hq ⊢; exact h.lockd q k' hq
  · by_cases e : q = p
    · subst e; simp only [] at hm; rw [he] at hm; cases hm
    · simp only [upd_other _ _ _ _ e]; exact h.none' q hm
  · by_cases e : q = p
    · subst e; simp only [] at hm; rw [he] at hm; cases hm
    · simp only [upd_other _ _ _ _ e]; exact h.emu q hm

private theorem emul_of {s : Sys} (h : Inv s) (p : Nat)
    (hp : s.pc p ≠ .off ∧ s.pc p ≠ .running ∧ s.pc p ≠ .leaving ∧ s.pc p ≠ .unlinking) : s.emul p = true := by
  cases he : s.emul p with
  | true => rfl
  | false =>
    rcases h.emu p he with x | x | x | x
    · exact absurd x hp.1
    · exact absurd x hp.2.1
    · exact absurd x hp.2.2.1
    · exact absurd x hp.2.2.2

private theorem inv_step {s : Sys} (h : Inv s) (p : Nat) : Inv (step s p) := by
  unfold step
  split
  · exact h
  · next k hk =>
    have he := emul_of h p (by rw [hk]; simp)
    have hf := h.idle p (Or.inr (Or.inl ⟨k, hk⟩))
    unfold openFile
    split
    · next i hi => exact inv_fd h p i k (h.plt i hi) hf he
    · have h' : Inv { s with path := some s.next, next := s.next + 1 } :=
        ⟨h.own, h.hold, fun q i hq => Nat.lt_succ_of_lt (h.fdlt q i hq),
          fun i hi => (by cases hi; exact Nat.lt_succ_self _), h.idle, h.lockd, h.none', h.emu⟩
      exact inv_fd h' p s.next k (Nat.lt_succ_self _) hf he
  · next k hk =>
    have he := emul_of h p (by rw [hk]; simp)
    have hcl : Inv { s with pc := upd s.pc p (.closing k) } :=
      inv_pc h p _ (fun x => by rcases x with x | x <;> cases x) (fun x => by rcases x with x | ⟨_, x⟩ | ⟨_, x⟩ | x <;> cases x)
        (fun _ x => by cases x) (fun x => by rw [he] at x; cases x)
    unfold lockFile
    split
    · next i hi =>
      split
      · next ho =>
        have h' : Inv { s with owner := upd s.owner i (some p) } := by
          refine ⟨fun j q hq => ?_, fun q hq hm => ?_, h.fdlt, h.plt, h.idle, h.lockd, h.none', h.emu⟩
          · by_cases e : j = i
            · subst e; simp only [upd_same] at hq; cases hq; exact hi
            · simp only [upd_other _ _ _ _ e] at hq; exact h.own j q hq
          · obtain ⟨j, a, b⟩ := h.hold q hq hm
            refine ⟨j, a, ?_⟩
            by_cases e : j = i
            · subst e
              rcases ho with ho | ho
              · rw [ho] at b; cases b
              · rw [ho] at b; cases b; exact upd_same _ _ _
            · simp only [upd_other _ _ _ _ e]; exact b
        exact inv_pc h' p .running (fun _ _ => ⟨i, hi, upd_same _ _ _⟩) (fun x => by rcases x with x | ⟨_, x⟩ | ⟨_, x⟩ | x <;> cases x)
          (fun _ x => by cases x) (fun _ => Or.inr (Or.inl rfl))
      · exact hcl
    · exact hcl
  · next k hk =>
    have he := emul_of h p (by rw [hk]; simp)
    exact inv_release h p _ (by simp) (fun x => by rw [he] at x; cases x)
  · next k hk =>
    have he := emul_of h p (by rw [hk]; simp)
    have hf := h.idle p (Or.inr (Or.inr (Or.inl ⟨k, hk⟩)))
    refine inv_pc (inv_path h) p _ ?_ (fun _ => hf) ?_ (fun x => by simp only [] at x; rw [he] at x; cases x)
    · intro x; split at x <;> rcases x with x | x <;> cases x
    · intro k' x; split at x <;> cases x
  · exact h
  · exact inv_release h p _ (by simp) (fun _ => by simp)
  · next hk =>
    have hf := h.idle p (Or.inr (Or.inr (Or.inr hk)))
    exact inv_pc (inv_path h) p .off (fun x => by rcases x with x | x <;> cases x) (fun _ => hf) (fun _ x => by cases x)
      (fun _ => Or.inl rfl)

private theorem inv_ev {s : Sys} (h : Inv s) (e : Ev) : Inv (ev s e) := by
  cases e with
  | start p =>
    unfold ev
    simp only []
    split
    · next hk =>
      have hf := h.idle p (Or.inl hk)
      refine inv_pc h p _ (fun x hm => ?_) (fun _ => hf) (fun k x => ?_) (fun hm => ?_)
      · rw [if_neg (by rw [hm]; simp)] at x; rcases x with x | x <;> cases x
      · split at x <;> cases x
      · rw [if_pos hm]; exact Or.inr (Or.inl rfl)
    · exact h
  | step p => exact inv_step h p
  | openFails p =>
    unfold ev
    simp only []
    split
    · next k hk =>
      have he := emul_of h p (by rw [hk]; simp)
      have hf := h.idle p (Or.inr (Or.inl ⟨k, hk⟩))
      exact inv_pc h p _ (fun x => by rcases x with x | x <;> cases x) (fun _ => hf) (fun _ x => by cases x)
        (fun x => by rw [he] at x; cases x)
    · exact h
  | exit p =>
    unfold ev
    simp only []
    split
    · next hk =>
      exact inv_pc h p .leaving (fun _ hm => h.hold p (Or.inl hk) hm)
        (fun x => by rcases x with x | ⟨_, x⟩ | ⟨_, x⟩ | x <;> cases x) (fun _ x => by cases x) (fun _ => Or.inr (Or.inr (Or.inl rfl)))
    · exact h
  | kill p => exact inv_release h p .off (by simp) (fun _ => Or.inl rfl)

private theorem inv_run (es : List Ev) {s : Sys} (h : Inv s) : Inv (run s es) := by
  induction es generalizing s with
  | nil => exact h
  | cons e es ih => exact ih (inv_ev h e)

private theorem inv_reach {s : Sys} (h : Reach s) : Inv s := by
  obtain ⟨emul, es, rfl⟩ := h
  apply inv_run
  refine ⟨fun i p h => ?_, fun p h => ?_, fun p i h => ?_, fun i h => ?_, fun p _ => rfl, fun p k h => ?_, fun p _ => rfl, fun p _ => Or.inl rfl⟩
  · cases h
  · rcases h with h | h <;> cases h
  · cases h
  · cases h
  · cases h

/-- A daemon that asked for the lock and runs holds the lock of a file; no two of them hold that of the same one. -/
theorem C150_holds (s : Sys) (h : Reach s) (p : Nat) (hp : s.pc p = .running) (he : s.emul p = true) :
    ∃ i, s.fd p = some i ∧ s.owner i = some p ∧
      ∀ q, q ≠ p → s.pc q = .running → s.emul q = true → s.fd q ≠ some i := by
  obtain ⟨i, a, b⟩ := (inv_reach h).hold p (Or.inl hp) he
  refine ⟨i, a, b, fun q hq hr hm hf => ?_⟩
  obtain ⟨j, c, d⟩ := (inv_reach h).hold q (Or.inl hr) hm
  rw [hf] at c
  cases c
  rw [b] at d
  cases d
  exact hq rfl

private def both : Nat → Bool := fun _ => true

/-- The daemon 0 gets the lock; then the daemon 1 tries. -/
private def second : List Ev :=
  [.start 0, .step 0, .step 0, .start 1, .step 1, .step 1, .step 1, .step 1, .step 1, .step 1]

example : ((run (init both) second).fd 0, (run (init both) second).fd 1) = (some 0, some 1) := by decide

/-- Two daemons that asked for the same lock run at the same time. -/
theorem C150_exclusive_negation :
    ¬ ∀ s, Reach s → ∀ p q, p ≠ q → s.emul p = true → s.emul q = true → s.pc p = .running → s.pc q ≠ .running := by
  intro h
  exact h (run (init both) second) ⟨both, second, rfl⟩ 0 1 (by decide) (by decide) (by decide) (by decide) (by decide)

/-- An event that removes no file. -/
def quiet (s : Sys) : Ev → Prop
  | .step p => s.pc p ≠ .unlinking ∧ ∀ k, s.pc p ≠ .removing k
  | _ => True

/-- A sequence of events that removes no file. -/
def Quiet (s : Sys) : List Ev → Prop
  | [] => True
  | e :: es => quiet s e ∧ Quiet (ev s e) es

private theorem path_keep {s : Sys} (e : Ev) (hq : quiet s e) (h : ∀ p i, s.fd p = some i → s.path = some i) :
    ∀ p i, (ev s e).fd p = some i → (ev s e).path = some i := by
  have rel : ∀ p c, ∀ q i, ({ release s p with pc := c } : Sys).fd q = some i → s.path = some i := by
    intro p c q i hf
    by_cases e : q = p
    · subst e; simp only [release, upd_same] at hf; cases hf
    · simp only [release, upd_other _ _ _ _ e] at hf; exact h q i hf
  cases e with
  | start p => unfold ev; simp only []; split <;> exact h
  | openFails p => unfold ev; simp only []; split <;> exact h
  | exit p => unfold ev; simp only []; split <;> exact h
  | kill p => exact rel p _
  | step p =>
    show ∀ q i, (step s p).fd q = some i → (step s p).path = some i
    unfold step
    split
    · exact h
    · unfold openFile
      split
      · next j hj =>
        intro q i hf
        by_cases e : q = p
        · subst e; simp only [upd_same] at hf; rw [← hf]; exact hj
        · simp only [upd_other _ _ _ _ e] at hf; exact h q i hf
      · next hj =>
        intro q i hf
        by_cases e : q = p
        · subst e; simp only [upd_same] at hf; exact hf
        · simp only [upd_other _ _ _ _ e] at hf
          have := h q i hf
          rw [hj] at this; cases this
    · unfold lockFile
      split
      · split <;> exact h
      · exact h
    · exact rel p _
    · next k hk => exact absurd hk (hq.2 k)
    · exact h
    · exact rel p _
    · next hk => exact absurd hk hq.1

private theorem path_run (es : List Ev) {s : Sys} (hq : Quiet s es) (h : ∀ p i, s.fd p = some i → s.path = some i) :
    ∀ p i, (run s es).fd p = some i → (run s es).path = some i := by
  induction es generalizing s with
  | nil => exact h
  | cons e es ih => exact ih hq.2 (path_keep e hq.1 h)

/-- As long as nobody has removed the file, at most one daemon of those that asked for the lock runs. -/
theorem C150_exclusive_partial (emul : Nat → Bool) (es : List Ev) (hq : Quiet (init emul) es) (p q : Nat) (hne : p ≠ q)
    (hp : (run (init emul) es).pc p = .running) (hep : (run (init emul) es).emul p = true)
    (heq : (run (init emul) es).emul q = true) : (run (init emul) es).pc q ≠ .running := by
  intro hr
  have hreach : Reach (run (init emul) es) := ⟨emul, es, rfl⟩
  obtain ⟨i, a, _, c⟩ := C150_holds _ hreach p hp hep
  have hpath := path_run es hq (fun _ _ h => by cases h)
  obtain ⟨j, d, _⟩ := C150_holds _ hreach q hr heq
  have e1 := hpath p i a
  have e2 := hpath q j d
  rw [e1] at e2
  cases e2
  exact c q (Ne.symm hne) hr heq d

example : Quiet (init both) [.start 0, .step 0, .step 0, .start 1, .step 1, .step 1, .step 1, .kill 1] := by
  refine ⟨trivial, ?_, ?_, trivial, ?_, ?_, ?_, trivial, trivial⟩ <;> exact ⟨by decide, fun k => by simp [ev, step, openFile, lockFile, init, upd, both]⟩

/-- A second daemon always gets its lock with the second attempt, while the first one runs on. -/
theorem C150_second (s : Sys) (h : Reach s) (a b i : Nat) (hab : a ≠ b) (ha : s.pc a = .running) (hea : s.emul a = true)
    (hp : s.path = some i) (hf : s.fd a = some i) (hb : s.pc b = .off) (heb : s.emul b = true) :
    let t := run s [.start b, .step b, .step b, .step b, .step b, .step b, .step b]
    t.pc a = .running ∧ t.pc b = .running := by
  have hI := inv_reach h
  have hown : s.owner i = some a := by
    obtain ⟨j, c, d⟩ := hI.hold a (Or.inl ha) hea
    rw [hf] at c; cases c; exact d
  have hnext : s.owner s.next = none := by
    cases ho : s.owner s.next with
    | none => rfl
    | some q => exact absurd (hI.fdlt q _ (hI.own _ q ho)) (Nat.lt_irrefl _)
  simp [run, ev, step, openFile, lockFile, release, upd, hb, heb, hp, hown, hnext, ha, hab]

example : Reach (run (init both) [.start 0, .step 0, .step 0]) ∧ (run (init both) [.start 0, .step 0, .step 0]).path = some 0 :=
  ⟨⟨both, _, rfl⟩, by decide⟩

/-- Without host emulation, which is every usual daemon, no lock is asked for: the daemon runs at once, whatever the others do. -/
theorem C150_no_lock (s : Sys) (p : Nat) (hp : s.pc p = .off) (he : s.emul p = false) :
    (ev s (.start p)).pc p = .running ∧ (ev s (.start p)).owner = s.owner ∧ (ev s (.start p)).fd = s.fd ∧
      ∀ q, q ≠ p → (ev s (.start p)).pc q = s.pc q := by
  unfold ev
  simp only []
  rw [if_pos hp, if_pos he]
  exact ⟨upd_same _ _ _, rfl, rfl, fun q hq => upd_other _ _ _ _ hq⟩

example : (run (init (fun _ => false)) [.start 0, .start 1]).pc 0 = .running ∧
    (run (init (fun _ => false)) [.start 0, .start 1]).pc 1 = .running := by decide

/-- When such a daemon ends it removes the file of the others. -/
theorem C150_removes (s : Sys) (p : Nat) (hp : s.pc p = .running) : (run s [.exit p, .step p, .step p]).path = none ∧
    (run s [.exit p, .step p, .step p]).pc p = .off := by
  simp [run, ev, step, release, upd, hp]

/-- A daemon that was killed does not keep others away: the next one gets the lock with the first attempt. -/
theorem C150_killed (s : Sys) (h : Reach s) (p q : Nat) (hpq : q ≠ p) (hq : s.pc q = .off) (he : s.emul q = true)
    (hfree : ∀ r i, r ≠ p → s.path = some i → s.fd r ≠ some i) :
    (run s [.kill p, .start q, .step q, .step q]).pc q = .running := by
  have hI := inv_reach h
  cases hpath : s.path with
  | some i =>
    have ho : s.owner i = none ∨ s.owner i = some p := by
      cases ho : s.owner i with
      | none => exact Or.inl rfl
      | some r =>
        by_cases e : r = p
        · rw [e]; exact Or.inr rfl
        · exact absurd (hI.own i r ho) (hfree r i e hpath)
    rcases ho with ho | ho <;>
      simp [run, ev, step, openFile, lockFile, release, upd, hq, he, hpath, ho, hpq]
  | none =>
    have hnext : s.owner s.next = none := by
      cases ho : s.owner s.next with
      | none => rfl
      | some r => exact absurd (hI.fdlt r _ (hI.own _ r ho)) (Nat.lt_irrefl _)
    simp [run, ev, step, openFile, lockFile, release, upd, hq, he, hpath, hnext, hpq]

example : (run (init both) [.start 0, .step 0, .step 0, .kill 0, .start 1, .step 1, .step 1]).pc 1 = .running ∧
    (run (init both) [.start 0, .step 0, .step 0, .start 1, .step 1, .step 1]).pc 1 = .closing 5 := by decide

/-- Six attempts are made; if the file cannot be opened the daemon gives up after them, and not before. -/
theorem C150_attempts (s : Sys) (p : Nat) (hp : s.pc p = .off) (he : s.emul p = true) :
    (run s [.start p, .openFails p, .step p, .openFails p, .step p, .openFails p, .step p, .openFails p, .step p,
      .openFails p, .step p]).pc p = .opening 0 ∧
    (run s [.start p, .openFails p, .step p, .openFails p, .step p, .openFails p, .step p, .openFails p, .step p,
      .openFails p, .step p, .openFails p, .step p]).pc p = .off := by
  simp [run, ev, step, upd, hp, he]

end Verif.Lock
