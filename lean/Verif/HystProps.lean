import Verif.HystModel

/-
Properties C105 and C106: link hysteresis (RFC 3626, section 14).
-/

namespace Verif.Hyst
open Verif.SchedTime

/-! ### Specification -/

/-- An evaluation of the hysteresis: when, how long the link entry still lives, and the quality. -/
structure Eval (Q : Type) where
  t : Nat
  life : Nat
  q : Q
deriving DecidableEq, Repr

/-- The evaluations in a sequence of events, oldest first. -/
def evals {Q : Type} (p : Par Q) : Link Q → List (Nat × Ev) → List (Eval Q)
  | _, [] => []
  | l, (t, .packet s) :: r => evals p (step p l t (.packet s)) r
  | l, (t, .hello life) :: r => ⟨t, life, l.q⟩ :: evals p (step p l t (.hello life)) r
  | l, (t, .timeout life) :: r =>
    ⟨t, life, p.inst l.q⟩ :: evals p (step p l t (.timeout life)) r

/-- The last evaluation with a quality outside of the band between the thresholds. -/
def decisive {Q : Type} (p : Par Q) (es : List (Eval Q)) : Option (Eval Q) :=
  es.reverse.find? fun e => p.hi e.q || p.lo e.q

/-- What a link created at `t0` is announced as at the time `t`: the last quality outside of the band
decides.  Above it the link counts; below it the link is lost for 20 seconds, at most until its entry
expires, and then hidden.  Before there was such a quality it is lost for the validity time. -/
def expected {Q : Type} (p : Par Q) (t0 vtime : Nat) (es : List (Eval Q)) (t : Nat) : Status :=
  match decisive p es with
  | none => if t < t0 + vtime then .lost else .hide
  | some e =>
    if p.hi e.q then .asWithout
    else if t < e.t + min 20000 e.life then .lost
    else .hide

/-- The time of the last decision. -/
def decidedAt {Q : Type} (p : Par Q) (t0 : Nat) (es : List (Eval Q)) : Nat :=
  match decisive p es with
  | none => t0
  | some e => e.t

/-! ### C105 -/

private theorem run_fields {Q : Type} (p : Par Q) : ∀ (evs : List (Nat × Ev)) (l : Link Q),
    (run p l evs).pending = (match decisive p (evals p l evs) with
      | none => l.pending
      | some e => !p.hi e.q) ∧
    (run p l evs).lost = (match decisive p (evals p l evs) with
      | none => l.lost
      | some e => if p.hi e.q then (e.t % W + 4294967295) % 4294967296
          else min (getTimestamp (e.t % W) 20000) (getTimestamp (e.t % W) e.life))
  | [], l => ⟨rfl, rfl⟩
  | (t, .packet s) :: r, l => run_fields p r (step p l t (.packet s))
  | (t, .hello life) :: r, l => by
    have ih := run_fields p r (step p l t (.hello life))
    have hd : decisive p (evals p l ((t, .hello life) :: r))
        = (decisive p (evals p (step p l t (.hello life)) r)).or
          (if p.hi l.q || p.lo l.q then some ⟨t, life, l.q⟩ else none) := by
      simp only [decisive, evals, List.reverse_cons, List.find?_append, List.find?_singleton]
    rw [hd]
    simp only [run]
    cases hx : decisive p (evals p (step p l t (.hello life)) r) with
    | some e => rw [hx] at ih; exact ih
    | none =>
      rw [hx] at ih
      simp only [Option.none_or]
      rw [ih.1, ih.2]
      simp only [step, process]
      cases h1 : p.hi l.q <;> cases h2 : p.lo l.q <;> simp [h1]
  | (t, .timeout life) :: r, l => by
    have ih := run_fields p r (step p l t (.timeout life))
    have hd : decisive p (evals p l ((t, .timeout life) :: r))
        = (decisive p (evals p (step p l t (.timeout life)) r)).or
          (if p.hi (p.inst l.q) || p.lo (p.inst l.q) then some ⟨t, life, p.inst l.q⟩ else none) := by
      simp only [decisive, evals, List.reverse_cons, List.find?_append, List.find?_singleton]
    rw [hd]
    simp only [run]
    cases hx : decisive p (evals p (step p l t (.timeout life)) r) with
    | some e => rw [hx] at ih; exact ih
    | none =>
      rw [hx] at ih
      simp only [Option.none_or]
      rw [ih.1, ih.2]
      simp only [step, helloTimeout, process]
      cases h1 : p.hi (p.inst l.q) <;> cases h2 : p.lo (p.inst l.q) <;> simp [h1]

private theorem evals_mem {Q : Type} (p : Par Q) : ∀ (evs : List (Nat × Ev)) (l : Link Q) (e : Eval Q),
    e ∈ evals p l evs → (e.t, Ev.hello e.life) ∈ evs ∨ (e.t, Ev.timeout e.life) ∈ evs
  | [], l, e, h => by cases h
  | (t, .packet s) :: r, l, e, h => by
    rcases evals_mem p r _ e h with h | h
    · exact Or.inl (List.mem_cons_of_mem _ h)
    · exact Or.inr (List.mem_cons_of_mem _ h)
  | (t, .hello life) :: r, l, e, h => by
    rcases List.mem_cons.1 h with rfl | h
    · exact Or.inl List.mem_cons_self
    · rcases evals_mem p r _ e h with h | h
      · exact Or.inl (List.mem_cons_of_mem _ h)
      · exact Or.inr (List.mem_cons_of_mem _ h)
  | (t, .timeout life) :: r, l, e, h => by
    rcases List.mem_cons.1 h with rfl | h
    · exact Or.inr List.mem_cons_self
    · rcases evals_mem p r _ e h with h | h
      · exact Or.inl (List.mem_cons_of_mem _ h)
      · exact Or.inr (List.mem_cons_of_mem _ h)

private theorem past {t s : Nat} (ht : t < W) (hs : s ≤ t) (hd : t - s ≤ H) :
    isTimedOut (t % W) s = true := by
  rw [Nat.mod_eq_of_lt ht]
  unfold isTimedOut
  rw [if_neg (by omega)]
  simpa using hd

private theorem future {t s : Nat} (ht : t < W) (hs : t < s) (hd : s - t ≤ H) :
    isTimedOut (t % W) s = false := by
  rw [Nat.mod_eq_of_lt ht]
  unfold isTimedOut
  rw [if_pos hs]
  simpa using hd

/-- **C105 (part).** A link is announced as its history demands, for any quality type, thresholds and
sequence of events, while olsrd runs for less than 49 days (2^32 ms) and the last decision is not
older than 24 days (2^31 ms).  Missing: later times, where it fails, see below. -/
theorem C105_status_partial {Q : Type} (p : Par Q) (zero : Q) (t0 vtime t : Nat)
    (evs : List (Nat × Ev)) (h0 : 1 ≤ t0) (ht0 : t0 ≤ t) (hv : vtime ≤ H) (hvw : t0 + vtime < W)
    (ht : t + 20000 < W)
    (hev : ∀ e ∈ evs, 1 ≤ e.1 ∧ e.1 ≤ t ∧
      ∀ life, (e.2 = .hello life ∨ e.2 = .timeout life) → e.1 + life < W)
    (hrec : t < decidedAt p t0 (evals p (new zero (t0 % W) vtime) evs) + H) :
    status (t % W) (run p (new zero (t0 % W) vtime) evs)
      = expected p t0 vtime (evals p (new zero (t0 % W) vtime) evs) t := by
  obtain ⟨hp, hl⟩ := run_fields p evs (new zero (t0 % W) vtime)
  unfold decidedAt at hrec
  unfold expected status
  rw [hp, hl]
  cases hx : decisive p (evals p (new zero (t0 % W) vtime) evs) with
  | none =>
    rw [hx] at hrec
    simp only [] at hrec
    simp only [new, getTimestamp, if_true]
    rw [Nat.mod_eq_of_lt (show t0 < W by omega), Nat.mod_eq_of_lt hvw]
    by_cases hlt : t < t0 + vtime
    · rw [if_pos hlt, future (by omega) hlt (by omega)]; rfl
    · rw [if_neg hlt, past (by omega) (by omega) (by omega)]; rfl
  | some e =>
    rw [hx] at hrec
    simp only [] at hrec
    simp only []
    have hmem : e ∈ evals p (new zero (t0 % W) vtime) evs :=
      List.mem_reverse.1 (List.mem_of_find?_eq_some hx)
    have htl : 1 ≤ e.t ∧ e.t ≤ t ∧ e.t + e.life < W := by
      rcases evals_mem p evs _ e hmem with h | h
      · obtain ⟨a, b, c⟩ := hev _ h
        exact ⟨a, b, c _ (Or.inl rfl)⟩
      · obtain ⟨a, b, c⟩ := hev _ h
        exact ⟨a, b, c _ (Or.inr rfl)⟩
    obtain ⟨h1, h2, h3⟩ := htl
    have hew : e.t % W = e.t := Nat.mod_eq_of_lt (by omega)
    by_cases hh : p.hi e.q = true
    · rw [if_pos hh, if_pos hh, hew, show (e.t + 4294967295) % 4294967296 = e.t - 1 by omega,
        past (by omega) (by omega) (by omega)]
      simp only [hh, Bool.not_true, Bool.false_eq_true, if_false]
    · rw [if_neg hh, if_neg hh]
      simp only [Bool.eq_false_iff.2 hh, Bool.not_false, if_true]
      have hm : min (getTimestamp (e.t % W) 20000) (getTimestamp (e.t % W) e.life)
          = e.t + min 20000 e.life := by
        unfold getTimestamp
        rw [hew, Nat.mod_eq_of_lt (show e.t + 20000 < W by omega), Nat.mod_eq_of_lt h3]
        omega
      rw [hm]
      by_cases hlt : t < e.t + min 20000 e.life
      · rw [if_pos hlt, future (by omega) hlt (by omega)]; rfl
      · rw [if_neg hlt, past (by omega) (by omega) (by omega)]; rfl

/-- Quality in percent, scaling 1/2, thresholds 80 and 30, in whole numbers. -/
private def pct : Par Nat :=
  ⟨fun q => (q + 100) / 2, fun q => q / 2, fun q => decide (80 < q), fun q => decide (q < 30)⟩

/-- A link that comes up with its third packet, falls into the band by a lost packet and is lost
with the next timeout, then hidden. -/
private def exEvs : List (Nat × Ev) :=
  [(2000, .packet 1), (2000, .hello 6000), (4000, .packet 2), (4000, .hello 26000),
   (6000, .packet 3), (6000, .hello 26000), (12000, .packet 5), (12000, .hello 26000),
   (15000, .timeout 23000)]

example :
    [1500, 6500, 12500, 15500, 34999, 35000].map (fun t =>
      status t (run pct (new 0 1000 6000) (exEvs.filter (fun e => e.1 ≤ t)))) =
    [.lost, .asWithout, .asWithout, .lost, .lost, .hide] ∧
    evals pct (new 0 1000 6000) exEvs =
      [⟨2000, 6000, 50⟩, ⟨4000, 26000, 75⟩, ⟨6000, 26000, 87⟩, ⟨12000, 26000, 46⟩,
       ⟨15000, 23000, 23⟩] := by decide +kernel

/-- **C105, false in general.** A link whose quality was once above the high threshold and has stayed
in the band since is announced as lost after 24 days: `L_LOST_LINK_time` is not renewed and comes to
lie in the future. -/
theorem C105_stale :
    ∃ (evs : List (Nat × Ev)) (t : Nat),
      status (t % W) (run pct (new 0 1000 6000) evs) = .lost ∧
      expected pct 1000 6000 (evals pct (new 0 1000 6000) evs) t = .asWithout ∧ t < W :=
  ⟨[(2000, .packet 1), (4000, .packet 2), (6000, .packet 3), (6000, .hello 26000),
    (12000, .packet 5), (12000, .hello 26000)], 6000 + H, by decide +kernel⟩

/-- **C105, false in general.** When the clock wraps between the two times, `MIN` takes the wrong one:
a link is lost for 30 instead of 20 seconds. -/
theorem C105_wrap :
    ∃ (evs : List (Nat × Ev)) (t : Nat),
      status (t % W) (run pct (new 0 (W - 60000) 6000) evs) = .lost ∧
      expected pct (W - 60000) 6000 (evals pct (new 0 (W - 60000) 6000) evs) t = .hide :=
  ⟨[(W - 25000, .hello 30000)], W + 4000, by decide +kernel⟩

/-- **C105, departure from RFC 3626.** A new link is announced as lost for its validity time; the RFC
(section 14.1) wants `L_LOST_LINK_time` to be expired, so that the link is not announced. -/
theorem C105_new_link_lost {Q : Type} (zero : Q) (t0 vtime t : Nat) (hv : 1 ≤ vtime)
    (hw : t0 + vtime < W) (ht0 : t0 ≤ t) (ht : t < t0 + vtime) (hh : vtime ≤ H) :
    status (t % W) (new zero (t0 % W) vtime) = .lost := by
  unfold status new getTimestamp
  simp only []
  rw [Nat.mod_eq_of_lt (show t0 < W by omega), Nat.mod_eq_of_lt hw,
    future (by omega) ht (by omega)]
  rfl

/-! ### C106 -/

private theorem losses_spec {Q : Type} (p : Par Q) (seqno : Nat) (hs : seqno < 65536) :
    ∀ (n : Nat) (q : Q) (s k : Nat), s < 65536 → (seqno + 65536 - s) % 65536 = k → k ≤ n →
    ∃ j, j ≤ k ∧ losses p seqno n q s = Nat.repeat p.inst j q ∧
      (∀ i, 0 < i → i < j → p.lo (Nat.repeat p.inst i q) = false) ∧
      (j < k → 0 < j ∧ p.lo (Nat.repeat p.inst j q) = true)
  | 0, q, s, k, _, hk, hn => ⟨0, by omega, rfl, fun i h1 h2 => by omega, fun h => by omega⟩
  | n + 1, q, s, k, hss, hk, hn => by
    unfold losses
    by_cases he : s = seqno
    · rw [if_pos he]
      exact ⟨0, by omega, rfl, fun i h1 h2 => by omega, fun h => by exfalso; omega⟩
    · rw [if_neg he]
      cases hl : p.lo (p.inst q) with
      | true =>
        rw [if_pos rfl]
        exact ⟨1, by omega, rfl, fun i h1 h2 => by omega, fun _ => ⟨by omega, hl⟩⟩
      | false =>
        rw [if_neg (by simp)]
        obtain ⟨j, h1, h2, h3, h4⟩ := losses_spec p seqno hs n (p.inst q) ((s + 1) % 65536) (k - 1)
          (by omega) (by omega) (by omega)
        have hrep : ∀ i, Nat.repeat p.inst i (p.inst q) = Nat.repeat p.inst (i + 1) q := by
          intro i
          induction i with
          | zero => rfl
          | succ i ih => simp only [Nat.repeat] at ih ⊢; rw [ih]
        refine ⟨j + 1, by omega, by rw [h2, hrep], ?_, ?_⟩
        · intro i hi1 hi2
          by_cases hi : i = 1
          · subst hi; exact hl
          · have := h3 (i - 1) (by omega) (by omega)
            rw [hrep, show i - 1 + 1 = i by omega] at this
            exact this
        · intro hjk
          obtain ⟨_, h6⟩ := h4 (by omega)
          rw [hrep] at h6
          exact ⟨by omega, h6⟩

/-- **C106.** For a packet with a sequence number that is `k` above the expected one (below 100), the
link gains one reception and loses `k`, ending earlier only when the quality has fallen below the low
threshold; in every other case it only gains.  The next packet is expected with the next number. -/
theorem C106_losses {Q : Type} (p : Par Q) (l : Link Q) (seqno k : Nat) (hs : seqno < 65536)
    (hl : l.seq < 65536) (hk : (seqno + 65536 - l.seq) % 65536 = k) :
    (incoming p seqno l).seq = (seqno + 1) % 65536 ∧ (incoming p seqno l).valid = true ∧
    (incoming p seqno l).pending = l.pending ∧ (incoming p seqno l).lost = l.lost ∧
    (l.valid = false ∨ 100 ≤ k → (incoming p seqno l).q = p.stab l.q) ∧
    (l.valid = true → k < 100 → ∃ j, j ≤ k ∧
      (incoming p seqno l).q = Nat.repeat p.inst j (p.stab l.q) ∧
      (∀ i, 0 < i → i < j → p.lo (Nat.repeat p.inst i (p.stab l.q)) = false) ∧
      (j < k → p.lo (Nat.repeat p.inst j (p.stab l.q)) = true)) := by
  refine ⟨rfl, rfl, rfl, rfl, ?_, ?_⟩
  · intro h
    unfold incoming
    simp only []
    rw [if_neg]
    rintro ⟨h1, h2⟩
    rcases h with h | h
    · rw [h] at h1; cases h1
    · omega
  · intro h1 h2
    obtain ⟨j, a, b, c, d⟩ := losses_spec p seqno hs 100 (p.stab l.q) l.seq k hl hk (by omega)
    refine ⟨j, a, ?_, c, fun h => (d h).2⟩
    unfold incoming
    simp only []
    rw [if_pos ⟨h1, by omega⟩]
    exact b

private theorem lo_repeat {Q : Type} (p : Par Q) (hmono : ∀ x, p.lo x = true → p.lo (p.inst x) = true)
    {x : Q} {j : Nat} (h : p.lo (Nat.repeat p.inst j x) = true) :
    ∀ k, j ≤ k → p.lo (Nat.repeat p.inst k x) = true := by
  intro k hk
  induction k with
  | zero => have : j = 0 := by omega
            subst this; exact h
  | succ k ih =>
    by_cases he : j = k + 1
    · subst he; exact h
    · simp only [Nat.repeat]
      exact hmono _ (ih (by omega))

/-- **C106.** Stopping early does not matter for the thresholds: if losses never raise the quality
above the low threshold again, the quality is below it exactly when it would be after all `k` losses. -/
theorem C106_early_stop {Q : Type} (p : Par Q)
    (hmono : ∀ x, p.lo x = true → p.lo (p.inst x) = true) (l : Link Q) (seqno k : Nat)
    (hs : seqno < 65536) (hl : l.seq < 65536) (hv : l.valid = true)
    (hk : (seqno + 65536 - l.seq) % 65536 = k) (hk100 : k < 100) :
    p.lo (incoming p seqno l).q = p.lo (Nat.repeat p.inst k (p.stab l.q)) := by
  obtain ⟨j, h1, h2, _, h4⟩ := (C106_losses p l seqno k hs hl hk).2.2.2.2.2 hv hk100
  rw [h2]
  by_cases hj : j = k
  · rw [hj]
  · have h := h4 (by omega)
    rw [h, lo_repeat p hmono h k (by omega)]

/-- **C106.** A HELLO timeout costs one loss and moves the expected number on, so that the HELLO that
was missed is not counted again when the next packet arrives with one number skipped. -/
theorem C106_timeout {Q : Type} (p : Par Q) (l : Link Q) (now clock n : Nat) (hv : l.valid = true)
    (hl : l.seq = n % 65536) :
    (helloTimeout p now clock l).q = p.inst l.q ∧
    (incoming p ((n + 1) % 65536) (helloTimeout p now clock l)).q = p.stab (p.inst l.q) := by
  have hq : (helloTimeout p now clock l).q = p.inst l.q ∧ (helloTimeout p now clock l).valid = true ∧
      (helloTimeout p now clock l).seq = (n + 1) % 65536 := by
    unfold helloTimeout process
    simp only []
    split
    · exact ⟨rfl, hv, by simp only []; omega⟩
    · split
      · exact ⟨rfl, hv, by simp only []; omega⟩
      · exact ⟨rfl, hv, by simp only []; omega⟩
  refine ⟨hq.1, ?_⟩
  obtain ⟨j, h1, h2, _, _⟩ := (C106_losses p (helloTimeout p now clock l) ((n + 1) % 65536) 0 (by omega)
    (by rw [hq.2.2]; omega) (by rw [hq.2.2]; omega)).2.2.2.2.2 hq.2.1 (by omega)
  have hj : j = 0 := by omega
  subst hj
  rw [h2, hq.1]
  rfl

/-- Two packets lost across the wrap of the numbers; a jump of 100 is taken for a restart. -/
example :
    incoming pct 1 ⟨100, false, 0, 65535, true⟩ = ⟨25, false, 0, 2, true⟩ ∧
    incoming pct 10 ⟨100, false, 0, 5, true⟩ = ⟨25, false, 0, 11, true⟩ ∧
    incoming pct 105 ⟨90, false, 0, 5, true⟩ = ⟨95, false, 0, 106, true⟩ ∧
    incoming pct 9 ⟨90, false, 0, 10, true⟩ = ⟨95, false, 0, 10, true⟩ := by decide +kernel

end Verif.Hyst
