import Verif.DupLemmas

/-!
# C04, C05, C06: duplicate detection of flooded messages

All statements are about histories (`List Op`) of message arrivals from any
originators, periodic cleanups and resynchronisations, and about the verdicts
given for arriving messages.
-/

namespace Verif.Dup

open Verif.Seqno Verif.SchedTime

/-- In the history `ops` starting in `st`, the message (originator `o`, number `s`) arrived at some
point and got the verdict `dup`. -/
def GotVerdict (st : State) (ops : List Op) (o s : Nat) (dup : Bool) : Prop :=
  ∃ pre now post, ops = pre ++ Op.msg o s now :: post ∧ (isDuplicate (run st pre) o s now).1 = dup

/-- "accepted" = reported as not a duplicate -/
def Accepted (st : State) (ops : List Op) (o s : Nat) : Prop := GotVerdict st ops o s false

/-- operations that may happen between the first and the second copy of message `(o, s)`, accepted at
time `t1`: anything concerning other originators; for originator `o` itself only numbers at most 31
ahead of `s` or at most 32736 behind it; everything within the hold time of 120 s. -/
def Between (o s t1 : Nat) : Op → Prop
  | .msg o' s' now => t1 ≤ now ∧ now < t1 + 120000 ∧ s' < 65536 ∧ (o' = o → up s' s ≤ 31 ∨ up s s' ≤ 32736)
  | .cleanup now => t1 ≤ now ∧ now < t1 + 120000
  | .resync o' => o' ≠ o

/-- does the operation deliver a message of originator `o` older than `s`? -/
def isOlder (o s : Nat) : Op → Bool
  | .msg o' s' _ => decide (o' = o) && decide (31 < up s' s)
  | _ => false

theorem run_append (st : State) (a b : List Op) : run st (a ++ b) = run (run st a) b := by
  unfold run; rw [List.foldl_append]

private theorem between_run (o s t1 : Nat) (hs : s < 65536) (ht : t1 + 240000 < 4294967296) (ops : List Op) :
    ∀ (st : State) (n : Nat) (e : Entry), st o = some e → Mem s n e → t1 + 120000 ≤ e.validUntil → e.validUntil < t1 + 240000 →
      (∀ op ∈ ops, Between o s t1 op) → n + ops.countP (isOlder o s) ≤ 16 →
      ∃ e', run st ops o = some e' ∧ Mem s 16 e' := by
  induction ops with
  | nil =>
    intro st n e he hm _ _ _ hn
    obtain ⟨k, h1, h2, h3, h4⟩ := hm
    exact ⟨e, he, k, h1, h2, h3, by simp at hn; omega⟩
  | cons op ops ih =>
    intro st n e he hm hv hv2 hb hn
    have hb0 := hb op (by simp)
    have hbr : ∀ op' ∈ ops, Between o s t1 op' := fun op' h => hb op' (by simp [h])
    show ∃ e', run (step st op).1 ops o = some e' ∧ Mem s 16 e'
    match op, hb0 with
    | .cleanup now, ⟨h1, h2⟩ =>
      refine ih _ n e ?_ hm hv hv2 hbr (by simpa [List.countP_cons, isOlder] using hn)
      simp only [step, cleanup, he]
      have : isTimedOut now e.validUntil = false := by
        unfold isTimedOut
        rw [if_pos (by omega)]
        simp only [decide_eq_false_iff_not]
        omega
      simp [this]
    | .resync o', hne =>
      refine ih _ n e ?_ hm hv hv2 hbr (by simpa [List.countP_cons, isOlder] using hn)
      simp only [step, resync]
      rw [if_neg (fun h => hne h.symm)]; exact he
    | .msg o' s' now, ⟨h1, h2, h3, h4⟩ =>
      by_cases ho : o' = o
      · subst ho
        have h4 := h4 rfl
        have hts : getTimestamp now vtime = now + 120000 := by unfold getTimestamp vtime; omega
        refine ih _ (if up s' s ≤ 31 then n else n + 1) (decideEntry (touch e (getTimestamp now vtime)) s').2 ?_ ?_ ?_ ?_ hbr ?_
        · simp only [step, isDuplicate, State.set, if_true, he, entryStep]
        · apply mem_step s n s' _ hs h3 ?_ h4 ((mem_touch _ _ _ _).2 hm)
          by_cases hin : up s' s ≤ 31
          · exact Or.inr hin
          · left
            simp only [List.countP_cons, isOlder, decide_true, Bool.true_and, decide_eq_true_eq] at hn
            rw [if_pos (by omega)] at hn; omega
        · rw [decide_validUntil, touch_validUntil]; omega
        · rw [decide_validUntil, touch_validUntil, hts]; omega
        · simp only [List.countP_cons, isOlder, decide_true, Bool.true_and, decide_eq_true_eq] at hn
          split
          · rename_i hin
            rw [if_neg (by omega)] at hn; omega
          · rename_i hin
            rw [if_pos (by omega)] at hn; omega
      · refine ih _ n e ?_ hm hv hv2 hbr ?_
        · simp only [step, isDuplicate, State.set]
          rw [if_neg (fun h => ho h.symm)]; exact he
        · simpa [List.countP_cons, isOlder, ho] using hn

/-- **C04 (partial).**  Full claim: once a message has been accepted, every further copy is reported
as duplicate while its number is within 31 of the newest number seen from its originator.

Proved here for a message accepted from an originator that already *had* an entry (`hknown`); what
is missing is the very first message of an originator, for which the claim is false
(`C04_first_message_accepted_twice`).  Further hypotheses: the copies arrive within the 120 s hold
time, the 32-bit clock does not wrap during it (false otherwise: `C04_forgotten_at_clock_wrap`), and
at most 16 older messages of the same originator arrive in between (otherwise the detector assumes a
restart, see C05). -/
theorem C04_no_second_acceptance_partial (st : State) (o s t1 t2 : Nat) (e0 : Entry) (ops : List Op)
    (hs : s < 65536) (ht : t1 + 240000 < 2 ^ 32)
    (hknown : st o = some e0) (hseq : e0.seqnr < 65536) (hvu : e0.validUntil ≤ t1 + 120000)
    (hacc : (isDuplicate st o s t1).1 = false)
    (hops : ∀ op ∈ ops, Between o s t1 op)
    (hold : ops.countP (isOlder o s) ≤ 16) :
    (isDuplicate (run (isDuplicate st o s t1).2 ops) o s t2).1 = true := by
  have hts : getTimestamp t1 vtime = t1 + 120000 := by unfold getTimestamp vtime; omega
  simp only [isDuplicate, hknown, entryStep] at hacc
  have hm := mem_of_accept s _ hs (by rw [touch_seqnr]; exact hseq) hacc
  obtain ⟨e', he', hm'⟩ := between_run o s t1 hs (by omega) ops
    (isDuplicate st o s t1).2 0 (decideEntry (touch e0 (getTimestamp t1 vtime)) s).2
    (by simp only [isDuplicate, State.set, if_true, hknown, entryStep])
    hm (by rw [decide_validUntil, touch_validUntil, hts]; omega)
    (by rw [decide_validUntil, touch_validUntil, hts]; omega) hops (by omega)
  generalize run (isDuplicate st o s t1).2 ops = st2 at he' ⊢
  simp only [isDuplicate, he', entryStep]
  exact mem_dup s 16 _ hs ((mem_touch _ _ _ _).2 hm')

/-- a state met in practice: originator 7 was heard with numbers 99 and 100; now 101 arrives, then 103
and another originator's 101, then 101 again -/
def exState : State := run State.empty [.msg 7 99 1000, .msg 7 100 1500]

example : (isDuplicate exState 7 101 2000).1 = false ∧
    (isDuplicate (run (isDuplicate exState 7 101 2000).2 [.msg 7 103 2100, .msg 8 101 2200, .cleanup 2300]) 7 101 2400).1 = true := by
  decide

/-- **C04 is false for the first message of an originator**: a freshly created entry does not record
the message it was created for, so a second copy is accepted (and processed and forwarded) again. -/
theorem C04_first_message_accepted_twice (st : State) (o s t1 t2 : Nat) (hnew : st o = none) :
    (isDuplicate st o s t1).1 = false ∧ (isDuplicate (isDuplicate st o s t1).2 o s t2).1 = false := by
  have hd : diff s s = 0 := by unfold diff; simp
  constructor
  · simp only [isDuplicate, hnew, entryStep]
  · simp only [isDuplicate, hnew, entryStep, State.set, if_true]
    simp only [decideEntry, createEntry, touch, hd]
    rfl

example : (isDuplicate State.empty 7 100 1000).1 = false ∧
    (isDuplicate (isDuplicate State.empty 7 100 1000).2 7 100 1001).1 = false := by decide

/-- **C04 is false at the wrap of the 32-bit clock**: an entry refreshed shortly before the wrap keeps
its old (numerically larger) expiry time and is dropped by the next cleanup, so a copy arriving four
seconds after the original is accepted again. -/
theorem C04_forgotten_at_clock_wrap :
    let st := run State.empty [.msg 7 99 (2 ^ 32 - 120500), .msg 7 100 (2 ^ 32 - 120400)]
    (isDuplicate st 7 101 (2 ^ 32 - 2000)).1 = false ∧
    (isDuplicate (run (isDuplicate st 7 101 (2 ^ 32 - 2000)).2 [.cleanup 1000]) 7 101 2000).1 = false := by
  decide

/-! ### C06 -/

private def HistInv (P : Nat → Nat → Prop) (st : State) : Prop :=
  ∀ o e, st o = some e → e.seqnr < 65536 ∧ P o e.seqnr ∧
    ∀ k, k < 32 → e.array.getLsbD k = true → P o ((e.seqnr + 65536 - k) % 65536)

private theorem histInv_entry (P : Nat → Prop) (e : Entry) (s : Nat) (hs : s < 65536) (h0 : e.seqnr < 65536)
    (h1 : P e.seqnr) (h2 : ∀ k, k < 32 → e.array.getLsbD k = true → P ((e.seqnr + 65536 - k) % 65536))
    (hP : (decideEntry e s).1 = false → P s) :
    (decideEntry e s).2.seqnr < 65536 ∧ P (decideEntry e s).2.seqnr ∧
    ∀ k, k < 32 → (decideEntry e s).2.array.getLsbD k = true → P (((decideEntry e s).2.seqnr + 65536 - k) % 65536) := by
  obtain ⟨hd1, hd2, hd3⟩ := diff_eq s e.seqnr h0 hs
  revert hP
  unfold decideEntry
  simp only
  by_cases c1 : diff s e.seqnr < -31
  · rw [if_pos c1]
    split
    · intro hP
      have hP := hP rfl
      refine ⟨hs, hP, ?_⟩
      intro k hk hb
      simp only at hb ⊢
      have hk0 : k = 0 := by
        rw [BitVec.getLsbD_one] at hb; simp at hb; exact hb
      subst hk0
      have : (s + 65536 - 0) % 65536 = s := by omega
      rw [this]; exact hP
    · intro _; exact ⟨h0, h1, h2⟩
  · rw [if_neg c1]
    by_cases c2 : diff s e.seqnr ≤ 0
    · rw [if_pos c2]
      split
      · intro _; exact ⟨h0, h1, h2⟩
      · intro hP
        have hP := hP rfl
        refine ⟨h0, h1, ?_⟩
        intro k hk hb
        simp only [BitVec.getLsbD_or, Bool.or_eq_true] at hb
        rcases hb with hb | hb
        · exact h2 k hk hb
        · have hk' : k = (-diff s e.seqnr).toNat := by
            rw [BitVec.getLsbD_shiftLeft] at hb
            simp only [Bool.and_eq_true, Bool.not_eq_true', decide_eq_false_iff_not, decide_eq_true_eq] at hb
            obtain ⟨⟨_, hb2⟩, hb3⟩ := hb
            have : k - (-diff s e.seqnr).toNat = 0 := by
              generalize k - (-diff s e.seqnr).toNat = j at *
              rw [BitVec.getLsbD_one] at hb3
              simp at hb3; exact hb3
            omega
          have : (e.seqnr + 65536 - k) % 65536 = s := by omega
          simp only
          rw [this]; exact hP
    · rw [if_neg c2]
      intro hP
      have hP := hP rfl
      refine ⟨hs, hP, ?_⟩
      intro k hk hb
      simp only [BitVec.getLsbD_or, Bool.or_eq_true] at hb
      rcases hb with hb | hb
      · split at hb
        · rename_i c3
          have hb : (e.array <<< (diff s e.seqnr).toNat).getLsbD k = true := hb
          rw [BitVec.getLsbD_shiftLeft] at hb
          simp only [Bool.and_eq_true, Bool.not_eq_true', decide_eq_false_iff_not, decide_eq_true_eq] at hb
          obtain ⟨⟨_, hb2⟩, hb3⟩ := hb
          have := h2 (k - (diff s e.seqnr).toNat) (by omega) hb3
          have e1 : (e.seqnr + 65536 - (k - (diff s e.seqnr).toNat)) % 65536 = (s + 65536 - k) % 65536 := by omega
          rw [e1] at this; exact this
        · simp at hb
      · have hk0 : k = 0 := by
          rw [BitVec.getLsbD_one] at hb; simp at hb; exact hb
        subst hk0
        simp only
        have : (s + 65536 - 0) % 65536 = s := by omega
        rw [this]; exact hP

private theorem histInv_step (P : Nat → Nat → Prop) (st : State) (op : Op) (h : HistInv P st) (hop : OpOk op)
    (hP : ∀ o s now, op = .msg o s now → (isDuplicate st o s now).1 = false → P o s) : HistInv P (step st op).1 := by
  intro o' e' he
  match op with
  | .msg o s now =>
    have hP := hP o s now rfl
    simp only [step, isDuplicate, State.set] at he
    split at he
    · rename_i ho; subst ho
      injection he with he; subst he
      cases hst : st o' with
      | none =>
        have hacc : P o' s := hP (by simp only [isDuplicate, hst, entryStep])
        have hop : s < 65536 := hop
        simp only [entryStep, createEntry]
        refine ⟨hop, hacc, ?_⟩
        intro k _ hb; simp at hb
      | some e =>
        obtain ⟨h0, h1, h2⟩ := h o' e hst
        apply histInv_entry (P o') _ s hop (by rw [touch_seqnr]; exact h0) (by rw [touch_seqnr]; exact h1)
          (by rw [touch_seqnr, touch_array]; exact h2)
        intro hacc
        exact hP (by simp only [isDuplicate, hst, entryStep]; exact hacc)
    · exact h _ _ he
  | .cleanup now =>
    simp only [step, cleanup] at he
    split at he
    · split at he
      · cases he
      · injection he with he; subst he; exact h o' _ (by assumption)
    · cases he
  | .resync o =>
    simp only [step, resync] at he
    split at he
    · rename_i ho
      subst ho
      cases hst : st o' with
      | none => rw [hst] at he; simp at he
      | some e =>
        rw [hst] at he
        simp only [Option.map_some, Option.some.injEq] at he
        have := h _ _ hst
        subst he; exact this
    · exact h _ _ he

private theorem histInv_run (P : Nat → Nat → Prop) (ops : List Op) : ∀ st, HistInv P st → (∀ op ∈ ops, OpOk op) →
    (∀ o s, Accepted st ops o s → P o s) → HistInv P (run st ops) := by
  induction ops with
  | nil => intro st h _ _; exact h
  | cons op ops ih =>
    intro st h hok hP
    refine ih _ (histInv_step P st op h (hok op (by simp)) ?_) (fun op' h' => hok op' (by simp [h'])) ?_
    · intro o s now heq hacc
      exact hP o s ⟨[], now, ops, by rw [heq]; rfl, hacc⟩
    · intro o s ⟨pre, now, post, heq, hv⟩
      exact hP o s ⟨op :: pre, now, post, by rw [heq]; rfl, hv⟩

private theorem dup_cause (P : Nat → Prop) (e : Entry) (s : Nat) (hs : s < 65536) (h0 : e.seqnr < 65536)
    (h1 : P e.seqnr) (h2 : ∀ k, k < 32 → e.array.getLsbD k = true → P ((e.seqnr + 65536 - k) % 65536))
    (hdup : (decideEntry e s).1 = true) : P s ∨ ∃ n, P n ∧ diff s n < -31 := by
  obtain ⟨hd1, hd2, hd3⟩ := diff_eq s e.seqnr h0 hs
  revert hdup
  unfold decideEntry
  simp only
  by_cases c1 : diff s e.seqnr < -31
  · intro _; exact Or.inr ⟨_, h1, c1⟩
  · rw [if_neg c1]
    split
    · split
      · rename_i c2 c3
        intro _
        left
        have := h2 _ (by omega) c3
        have e1 : (e.seqnr + 65536 - (-diff s e.seqnr).toNat) % 65536 = s := by omega
        rw [e1] at this; exact this
      · intro h; simp at h
    · intro h; simp at h

/-- **C06.**  A message is reported as duplicate only if the same message was accepted before, or if
its number is more than 31 behind a number accepted from the same originator. -/
theorem C06_duplicate_only_if_seen (ops : List Op) (hok : ∀ op ∈ ops, OpOk op) (o s now : Nat) (hs : s < 65536)
    (hdup : (isDuplicate (run State.empty ops) o s now).1 = true) :
    Accepted State.empty ops o s ∨ ∃ n, Accepted State.empty ops o n ∧ diff s n < -31 := by
  have hinv := histInv_run (Accepted State.empty ops) ops State.empty
    (by intro o e h; cases h) hok (fun _ _ h => h)
  cases hst : run State.empty ops o with
  | none => simp [isDuplicate, hst, entryStep] at hdup
  | some e =>
    obtain ⟨h0, h1, h2⟩ := hinv o e hst
    simp only [isDuplicate, hst, entryStep] at hdup
    exact dup_cause (Accepted State.empty ops o) _ s hs (by rw [touch_seqnr]; exact h0) (by rw [touch_seqnr]; exact h1)
      (by rw [touch_seqnr, touch_array]; exact h2) hdup

example : (isDuplicate (run State.empty [.msg 7 65535 0, .msg 7 3 10, .msg 7 1 20]) 7 1 30).1 = true ∧
    (isDuplicate (run State.empty [.msg 7 65535 0, .msg 7 3 10, .msg 7 1 20]) 7 2 30).1 = false := by decide

/-- **C06.**  A number ahead of everything accepted so far from its originator is never suppressed. -/
theorem C06_newer_never_suppressed (ops : List Op) (hok : ∀ op ∈ ops, OpOk op) (o s now : Nat) (hs : s < 65536)
    (hnew : ∀ n, Accepted State.empty ops o n → 0 < diff s n) :
    (isDuplicate (run State.empty ops) o s now).1 = false := by
  cases hd : (isDuplicate (run State.empty ops) o s now).1 with
  | false => rfl
  | true =>
    rcases C06_duplicate_only_if_seen ops hok o s now hs hd with h | ⟨n, h, hlt⟩
    · have := hnew s h
      unfold diff at this; simp at this
    · have := hnew n h; omega

/-! ### C05 -/

/-- number of messages of originator `o` in a history -/
def msgCount (o : Nat) (ops : List Op) : Nat :=
  ops.countP (fun op => match op with | .msg o' _ _ => decide (o' = o) | _ => false)

private theorem c05_aux (o : Nat) (ops : List Op) : ∀ (st : State) (c : Nat),
    (st o = none ∨ ∃ e, st o = some e ∧ (∀ s now, Op.msg o s now ∈ ops → diff s e.seqnr < -31) ∧
      c ≤ e.tooLow ∧ e.tooLow ≤ 16) → c ≤ 16 →
    (∀ op ∈ ops, op ≠ .resync o) →
    (¬ ∃ s, Accepted st ops o s) → c + msgCount o ops ≤ 16 := by
  induction ops with
  | nil => intro st c _ hc _ _; simpa [msgCount] using hc
  | cons op ops ih =>
    intro st c hst hc hres hacc
    have hres' : ∀ op ∈ ops, op ≠ .resync o := fun op h => hres op (by simp [h])
    have hacc' : ¬ ∃ s, Accepted (step st op).1 ops o s := by
      rintro ⟨s, pre, now, post, heq, hv⟩
      exact hacc ⟨s, op :: pre, now, post, by rw [heq]; rfl, hv⟩
    match op with
    | .cleanup now =>
      have : msgCount o (Op.cleanup now :: ops) = msgCount o ops := by simp [msgCount]
      rw [this]
      refine ih _ c ?_ hc hres' hacc'
      rcases hst with h | ⟨e, h, h1, h2, h3⟩
      · left; simp [step, cleanup, h]
      · simp only [step, cleanup, h]
        by_cases ht : isTimedOut now e.validUntil = true
        · left; simp [ht]
        · right; exact ⟨e, by simp [ht], fun s now hm => h1 s now (by simp [hm]), h2, h3⟩
    | .resync o' =>
      have : msgCount o (Op.resync o' :: ops) = msgCount o ops := by simp [msgCount]
      rw [this]
      have hne : o ≠ o' := fun h => hres (Op.resync o') (by simp) (by rw [h])
      refine ih _ c ?_ hc hres' hacc'
      simp only [step, resync]; rw [if_neg hne]
      rcases hst with h | ⟨e, h, h1, h2, h3⟩
      · exact Or.inl h
      · exact Or.inr ⟨e, h, fun s now hm => h1 s now (by simp [hm]), h2, h3⟩
    | .msg o' s now =>
      by_cases ho : o' = o
      · subst ho
        have hcnt : msgCount o' (Op.msg o' s now :: ops) = msgCount o' ops + 1 := by
          simp [msgCount]
        have hnacc : (isDuplicate st o' s now).1 = true := by
          cases h : (isDuplicate st o' s now).1 with
          | true => rfl
          | false => exact absurd ⟨s, [], now, ops, rfl, h⟩ hacc
        rcases hst with h | ⟨e, h, h1, h2, h3⟩
        · simp [isDuplicate, h, entryStep] at hnacc
        · have hd := h1 s now (by simp)
          have hm : (e.tooLow + 1) % 65536 = e.tooLow + 1 := by omega
          have hne : ¬ (e.tooLow + 1 > 16) := by
            intro hgt
            simp only [isDuplicate, h, entryStep, decideEntry, touch, if_pos hd, hm, maxTooLow, if_pos hgt] at hnacc
            cases hnacc
          rw [hcnt]
          have := ih (step st (.msg o' s now)).1 (c + 1) ?_ (by omega) hres' hacc'
          · omega
          · right
            refine ⟨(decideEntry (touch e (getTimestamp now vtime)) s).2, ?_, ?_⟩
            · simp only [step, isDuplicate, State.set, if_true, h, entryStep]
            · simp only [decideEntry, touch, if_pos hd, hm, maxTooLow, if_neg hne]
              exact ⟨fun s now hm => h1 s now (by simp [hm]), by omega, by omega⟩
      · have hcnt : msgCount o (Op.msg o' s now :: ops) = msgCount o ops := by
          simp [msgCount, ho]
        rw [hcnt]
        refine ih _ c ?_ hc hres' hacc'
        simp only [step, isDuplicate, State.set]
        rw [if_neg (fun h => ho h.symm)]
        rcases hst with h | ⟨e, h, h1, h2, h3⟩
        · exact Or.inl h
        · exact Or.inr ⟨e, h, fun s now hm => h1 s now (by simp [hm]), h2, h3⟩

/-- **C05.**  After any history `past`, let messages of originator `o` arrive (interleaved with
anything else) that are all more than 31 behind every number accepted from `o` in the past, as after
a restart of that node.  If there are at least 17 of them, one of them is accepted.
(A resynchronisation request for the same originator, which sets the counter to 14, is excluded from
`recent` since it may also lower the counter; see `C05_resync_recovers_faster`.) -/
theorem C05_restart_recovers (past recent : List Op) (o : Nat) (hok : ∀ op ∈ past, OpOk op)
    (hold : ∀ s now, Op.msg o s now ∈ recent → ∀ n, Accepted State.empty past o n → diff s n < -31)
    (hres : ∀ op ∈ recent, op ≠ .resync o)
    (hmany : 17 ≤ msgCount o recent) :
    ∃ s, Accepted (run State.empty past) recent o s := by
  refine Classical.byContradiction fun hno => ?_
  have hinv := histInv_run (Accepted State.empty past) past State.empty
    (by intro o e h; cases h) hok (fun _ _ h => h)
  have hwf := run_wf past State.empty (by intro o e h; cases h) hok
  cases hst : run State.empty past o with
  | none =>
    have := c05_aux o recent _ 0 (Or.inl hst) (by omega) hres hno
    omega
  | some e =>
    obtain ⟨h0, h1, -⟩ := hinv o e hst
    obtain ⟨-, h2, -⟩ := hwf o e hst
    have := c05_aux o recent _ 0 (Or.inr ⟨e, hst, fun s now hm => hold s now hm _ h1, by omega, h2⟩)
      (by omega) hres hno
    omega

/-- a node whose numbers were near 40000 restarts and counts from 10000: the 17th message gets through -/
example :
    let late := fun n => (List.replicate n (Op.msg 7 10000 1000))
    (isDuplicate (run (run State.empty [.msg 7 40000 0, .msg 7 40001 10]) (late 15)) 7 10015 2000).1 = true ∧
    (isDuplicate (run (run State.empty [.msg 7 40000 0, .msg 7 40001 10]) (late 16)) 7 10016 2000).1 = false := by
  decide +kernel

/-- **C05.**  When an originator's empty TC has triggered the resynchronisation, three messages from
the lower range suffice. -/
theorem C05_resync_recovers_faster (past recent : List Op) (o : Nat) (hok : ∀ op ∈ past, OpOk op)
    (hold : ∀ s now, Op.msg o s now ∈ recent → ∀ n, Accepted State.empty past o n → diff s n < -31)
    (hres : ∀ op ∈ recent, op ≠ .resync o)
    (hmany : 3 ≤ msgCount o recent) :
    ∃ s, Accepted (resync (run State.empty past) o) recent o s := by
  refine Classical.byContradiction fun hno => ?_
  have hinv := histInv_run (Accepted State.empty past) past State.empty
    (by intro o e h; cases h) hok (fun _ _ h => h)
  cases hst : run State.empty past o with
  | none =>
    have := c05_aux o recent _ 14 (Or.inl (by simp [resync, hst])) (by omega) hres hno
    omega
  | some e =>
    obtain ⟨h0, h1, -⟩ := hinv o e hst
    have := c05_aux o recent _ 14
      (Or.inr ⟨{ e with tooLow := maxTooLow - 2 }, by simp [resync, hst],
        fun s now hm => hold s now hm _ h1, by unfold maxTooLow; simp, by unfold maxTooLow; simp⟩)
      (by omega) hres hno
    omega

example : (isDuplicate (run (resync (run State.empty [.msg 7 40000 0, .msg 7 40001 10]) 7)
      [.msg 7 10000 20, .msg 7 10001 30]) 7 10002 40).1 = false := by decide

end Verif.Dup
