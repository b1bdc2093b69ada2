import Verif.DupModel

namespace Verif.Dup

open Verif.Seqno Verif.SchedTime

/-- circular distance upwards from `b` to `a` -/
def up (a b : Nat) : Nat := (a + 65536 - b) % 65536

theorem diff_behind (s k s' : Nat) (hs : s < 65536) (hs' : s' < 65536) (hk : k ≤ 31) (h : up s s' ≤ 32736) :
    diff s' ((s + k) % 65536) = -((up s s' + k : Nat) : Int) := by
  unfold diff up at *; simp only; split <;> (try split) <;> omega

theorem diff_ahead (s k s' : Nat) (hs : s < 65536) (hs' : s' < 65536) (hk : k ≤ 31) (h : up s' s ≤ 31) :
    diff s' ((s + k) % 65536) = (up s' s : Int) - (k : Int) := by
  unfold diff up at *; simp only; split <;> (try split) <;> omega

theorem diff_eq (a b : Nat) (hb : b < 65536) (ha : a < 65536) : -32768 ≤ diff a b ∧ diff a b ≤ 32768 ∧
    ((b : Int) + diff a b) % 65536 = a := by
  unfold diff; simp only; refine ⟨?_, ?_, ?_⟩ <;> split <;> (try split) <;> omega

/-- bookkeeping part of what is remembered about an accepted number `s`: it is `k ≤ 31` behind the
reference number and its bit is set; `n` bounds the too-old messages counted since. -/
def Mem (s n : Nat) (e : Entry) : Prop :=
  ∃ k, k ≤ 31 ∧ e.seqnr = (s + k) % 65536 ∧ e.array.getLsbD k = true ∧ e.tooLow ≤ n

theorem mem_touch (s n v : Nat) (e : Entry) : Mem s n (touch e v) ↔ Mem s n e := Iff.rfl

theorem shl_or_get (a : BitVec 32) (d k : Nat) (hd : d + k ≤ 31) (h : a.getLsbD k = true) :
    (a.shiftLeft d ||| 1#32).getLsbD (d + k) = true := by
  show (a <<< d ||| 1#32).getLsbD (d + k) = true
  rw [BitVec.getLsbD_or, BitVec.getLsbD_shiftLeft]
  have h1 : d + k < 32 := by omega
  have h2 : ¬ (d + k < d) := by omega
  have h3 : d + k - d = k := by omega
  simp [h2, h3, h, h1]

theorem mem_step (s n s' : Nat) (e : Entry) (hs : s < 65536) (hs' : s' < 65536)
    (hn : n ≤ 15 ∨ up s' s ≤ 31)
    (hrange : up s' s ≤ 31 ∨ up s s' ≤ 32736) (hg : Mem s n e) :
    Mem s (if up s' s ≤ 31 then n else n + 1) (decideEntry e s').2 := by
  obtain ⟨k, hk, hseq, hbit, hlow⟩ := hg
  unfold decideEntry
  simp only
  by_cases hin : up s' s ≤ 31
  · -- inside the window [s, s+31]
    rw [hseq, diff_ahead s k s' hs hs' hk hin, if_pos hin, if_neg (by omega)]
    generalize hu : up s' s = u at *
    by_cases hle : ((u : Int) - (k : Int)) ≤ 0
    · rw [if_pos hle]
      split
      · exact ⟨k, hk, rfl, hbit, by simp⟩
      · refine ⟨k, hk, rfl, ?_, by simp⟩
        simp only [BitVec.getLsbD_or, hbit, Bool.true_or]
    · rw [if_neg hle, if_pos (by omega)]
      refine ⟨u, by omega, ?_, ?_, by simp⟩
      · simp only; unfold up at hu; omega
      · simp only
        have e1 : ((u : Int) - (k : Int)).toNat = u - k := by omega
        rw [e1]
        have e2 : (u - k) + k = u := by omega
        have := shl_or_get e.array (u - k) k (by omega) hbit
        rw [e2] at this; exact this
  · -- older than s
    have hold : up s s' ≤ 32736 := by rcases hrange with h | h <;> omega
    rw [hseq, diff_behind s k s' hs hs' hk hold, if_neg hin]
    have hn' : n ≤ 15 := by omega
    by_cases hlt : (-((up s s' + k : Nat) : Int)) < -31
    · rw [if_pos hlt]
      have hm : (e.tooLow + 1) % 65536 = e.tooLow + 1 := by omega
      rw [hm, if_neg (by unfold maxTooLow; omega)]
      exact ⟨k, hk, rfl, hbit, by simp only; omega⟩
    · rw [if_neg hlt, if_pos (by omega)]
      split
      · exact ⟨k, hk, rfl, hbit, by simp⟩
      · refine ⟨k, hk, rfl, ?_, by simp⟩
        simp only [BitVec.getLsbD_or, hbit, Bool.true_or]

/-- an accepted message of a known originator is remembered -/
theorem mem_of_accept (s : Nat) (e : Entry) (hs : s < 65536) (he : e.seqnr < 65536)
    (hacc : (decideEntry e s).1 = false) : Mem s 0 (decideEntry e s).2 := by
  revert hacc
  obtain ⟨hd1, hd2, hd3⟩ := diff_eq s e.seqnr he hs
  unfold decideEntry
  simp only
  by_cases h1 : diff s e.seqnr < -31
  · rw [if_pos h1]
    split
    · intro _; exact ⟨0, by omega, by simp only; omega, by simp only; decide, by simp⟩
    · intro h; exact absurd h (by simp)
  · rw [if_neg h1]
    by_cases h2 : diff s e.seqnr ≤ 0
    · rw [if_pos h2]
      split
      · intro h; exact absurd h (by simp)
      · intro _
        refine ⟨(-diff s e.seqnr).toNat, by omega, by simp only; omega, ?_, by simp⟩
        simp only [BitVec.getLsbD_or, BitVec.getLsbD_shiftLeft]
        have hb : (-diff s e.seqnr).toNat < 32 := by omega
        simp [hb]
    · rw [if_neg h2]
      intro _
      refine ⟨0, by omega, by simp only; omega, ?_, by simp⟩
      simp only [BitVec.getLsbD_or]
      have : (1#32).getLsbD 0 = true := by decide
      rw [this, Bool.or_true]

/-- a remembered number is reported as duplicate -/
theorem mem_dup (s n : Nat) (e : Entry) (hs : s < 65536) (hg : Mem s n e) : (decideEntry e s).1 = true := by
  obtain ⟨k, hk, hseq, hbit, -⟩ := hg
  unfold decideEntry
  simp only
  have hz : up s s = 0 := by unfold up; omega
  rw [hseq, diff_ahead s k s hs hs hk (by omega), hz, if_neg (by omega), if_pos (by omega)]
  have e0 : (-(((0:Nat) : Int) - (k : Int))).toNat = k := by omega
  simp only [e0, hbit, if_true]

/-- the expiry time is not touched by the decision -/
theorem decide_validUntil (e : Entry) (s : Nat) : (decideEntry e s).2.validUntil = e.validUntil := by
  unfold decideEntry; simp only
  split
  · split <;> rfl
  · split
    · split <;> rfl
    · rfl

theorem touch_seqnr (e : Entry) (v : Nat) : (touch e v).seqnr = e.seqnr := rfl

theorem touch_array (e : Entry) (v : Nat) : (touch e v).array = e.array := rfl

theorem touch_validUntil (e : Entry) (v : Nat) : (touch e v).validUntil = max e.validUntil v := by
  unfold touch; simp only; split <;> omega

/-- well-formedness of a stored entry: field widths -/
def WF (e : Entry) : Prop := e.seqnr < 65536 ∧ e.tooLow ≤ 16 ∧ e.validUntil < 4294967296

theorem decide_wf (e : Entry) (s : Nat) (hs : s < 65536) (he : WF e) : WF (decideEntry e s).2 := by
  obtain ⟨h1, h2, h3⟩ := he
  unfold decideEntry
  simp only
  split
  · split
    · exact ⟨hs, by simp, h3⟩
    · rename_i hc
      simp only [maxTooLow] at hc
      exact ⟨h1, by simp only; omega, h3⟩
  · split
    · split
      · exact ⟨h1, by simp, h3⟩
      · exact ⟨h1, by simp, h3⟩
    · exact ⟨hs, by simp, h3⟩

theorem touch_wf (e : Entry) (v : Nat) (hv : v < 4294967296) (he : WF e) : WF (touch e v) := by
  obtain ⟨h1, h2, h3⟩ := he
  exact ⟨h1, h2, by rw [touch_validUntil]; omega⟩

theorem getTimestamp_lt (now s : Nat) : getTimestamp now s < 4294967296 := by
  unfold getTimestamp; omega

theorem entryStep_wf (e? : Option Entry) (s now : Nat) (hs : s < 65536) (he : ∀ e, e? = some e → WF e) :
    WF (entryStep e? s now).2 := by
  have hts := getTimestamp_lt now vtime
  match e? with
  | none =>
    unfold entryStep createEntry
    exact ⟨hs, Nat.zero_le _, hts⟩
  | some e =>
    unfold entryStep
    exact decide_wf _ s hs (touch_wf e _ hts (he e rfl))

def WFState (st : State) : Prop := ∀ o e, st o = some e → WF e

/-- message numbers are 16 bit -/
def OpOk : Op → Prop
  | .msg _ s _ => s < 65536
  | _ => True

theorem step_wf (st : State) (op : Op) (h : WFState st) (hop : OpOk op) : WFState (step st op).1 := by
  intro o' e' he
  match op with
  | .msg o s now =>
    simp only [step, isDuplicate, State.set] at he
    split at he
    · injection he with he
      rw [← he]; exact entryStep_wf _ _ _ hop (fun e h' => h _ _ h')
    · exact h _ _ he
  | .cleanup now =>
    simp only [step, cleanup] at he
    split at he
    · split at he
      · cases he
      · injection he with he; subst he; exact h o' _ (by assumption)
    · cases he
  | .resync o =>
    simp only [step, resync] at he
    split at he
    · rename_i ho
      subst ho
      cases hst : st o' with
      | none => rw [hst] at he; simp at he
      | some e =>
        rw [hst] at he
        simp only [Option.map_some, Option.some.injEq] at he
        obtain ⟨h1, h2, h3⟩ := h _ _ hst
        subst he; exact ⟨h1, by simp [maxTooLow], h3⟩
    · exact h _ _ he

theorem run_wf (ops : List Op) : ∀ st, WFState st → (∀ op ∈ ops, OpOk op) → WFState (run st ops) := by
  induction ops with
  | nil => intro st h _; exact h
  | cons op ops ih =>
    intro st h hops
    exact ih _ (step_wf st op h (hops op (by simp))) (fun op' h' => hops op' (by simp [h']))

end Verif.Dup
