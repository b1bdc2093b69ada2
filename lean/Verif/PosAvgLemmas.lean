import Verif.PosAvgSpec

namespace Verif.PosAvg

/-- Counters that count the entries of a window. -/
structure Counts (c : Counters) (w : List Ent) : Prop where
  flag : ∀ f, c.flag f = w.countP (·.flag f)
  sb : c.sigBad = w.countP (isSig · .other)
  sl : c.sigLow = w.countP (isSig · .fix)
  sm : c.sigMid = w.countP (isSig · .differential)
  sh : c.sigHigh = w.countP (isSig · .sensitive)
  fb : c.fixBad = w.countP (isFix · .bad)
  f2 : c.fix2d = w.countP (isFix · .d2)
  f3 : c.fix3d = w.countP (isFix · .d3)

theorem counts_zero : Counts zero [] := ⟨fun _ => rfl, rfl, rfl, rfl, rfl, rfl, rfl, rfl⟩

theorem bump_add (p : Ent → Bool) (e : Ent) (w : List Ent) (n c : Nat) (hn : w.length < n)
    (hc : c = w.countP p) : bump true n (p e) c = some ((e :: w).countP p) := by
  have hle := List.countP_le_length (p := p) (l := w)
  unfold bump
  cases hp : p e with
  | true => rw [if_pos rfl, if_pos rfl, if_pos (by omega), List.countP_cons_of_pos hp, hc]
  | false => rw [if_neg (by simp), List.countP_cons_of_neg (by simp [hp]), hc]

theorem bump_del (p : Ent → Bool) (e : Ent) (w : List Ent) (n c : Nat)
    (hc : c = (w ++ [e]).countP p) : bump false n (p e) c = some (w.countP p) := by
  rw [List.countP_append] at hc
  unfold bump
  cases hp : p e with
  | true =>
    rw [List.countP_cons_of_pos hp, List.countP_nil] at hc
    rw [if_pos rfl, if_neg (by simp), if_pos (by omega), hc]; simp
  | false =>
    rw [List.countP_cons_of_neg (by simp [hp]), List.countP_nil] at hc
    rw [if_neg (by simp), hc]; rfl

theorem update_add {c : Counters} {w : List Ent} (h : Counts c w) (e : Ent) (n : Nat) (hn : w.length < n) :
    ∃ c', updateCounters n c e true = some c' ∧ Counts c' (e :: w) := by
  have hf : ∀ f, bump true n (e.flag f) (c.flag f) = some ((e :: w).countP (·.flag f)) :=
    fun f => bump_add (·.flag f) e w n _ hn (h.flag f)
  unfold updateCounters
  rw [if_pos (fun f => by rw [hf f]; rfl), bump_add (isSig · .other) e w n _ hn h.sb,
    bump_add (isSig · .fix) e w n _ hn h.sl, bump_add (isSig · .differential) e w n _ hn h.sm,
    bump_add (isSig · .sensitive) e w n _ hn h.sh, bump_add (isFix · .bad) e w n _ hn h.fb,
    bump_add (isFix · .d2) e w n _ hn h.f2, bump_add (isFix · .d3) e w n _ hn h.f3]
  exact ⟨_, rfl, fun f => by simp only [hf f]; rfl, rfl, rfl, rfl, rfl, rfl, rfl, rfl⟩

theorem update_del {c : Counters} {w : List Ent} {e : Ent} (h : Counts c (w ++ [e])) (n : Nat) :
    ∃ c', updateCounters n c e false = some c' ∧ Counts c' w := by
  have hf : ∀ f, bump false n (e.flag f) (c.flag f) = some (w.countP (·.flag f)) :=
    fun f => bump_del (·.flag f) e w n _ (h.flag f)
  unfold updateCounters
  rw [if_pos (fun f => by rw [hf f]; rfl), bump_del (isSig · .other) e w n _ h.sb,
    bump_del (isSig · .fix) e w n _ h.sl, bump_del (isSig · .differential) e w n _ h.sm,
    bump_del (isSig · .sensitive) e w n _ h.sh, bump_del (isFix · .bad) e w n _ h.fb,
    bump_del (isFix · .d2) e w n _ h.f2, bump_del (isFix · .d3) e w n _ h.f3]
  exact ⟨_, rfl, fun f => by simp only [hf f]; rfl, rfl, rfl, rfl, rfl, rfl, rfl, rfl⟩

theorem total_append (f : Fin 13) (e : Ent) : ∀ w : List Ent, total f (w ++ [e]) = total f w + e.val f
  | [] => by simp [total]
  | a :: w => by simp only [List.cons_append, total, total_append f e w]; omega

/-! The ring. -/

theorem mod1 {a L : Nat} (h : a < L) : (a + 1) % L = if a + 1 = L then 0 else a + 1 := by
  split
  · rename_i he; rw [he, Nat.mod_self]
  · exact Nat.mod_eq_of_lt (by omega)

theorem modk {a L k : Nat} (h : a < L) (hk : k ≤ L) : (a + L - k) % L = if k ≤ a then a - k else a + L - k := by
  split
  · rw [show a + L - k = (a - k) + L by omega, Nat.add_mod_right, Nat.mod_eq_of_lt (by omega)]
  · exact Nat.mod_eq_of_lt (by omega)

/-- The list holds the window `w`. -/
structure Holds (n : Nat) (s : St) (w : List Ent) : Prop where
  two : 2 ≤ n
  max : s.max = n
  len : s.entries.length = n + 1
  newest : s.newest < n + 1
  count : s.count = w.length
  le : w.length ≤ n
  at_ : ∀ k, k < w.length → s.entries[(s.newest + (n + 1) - k) % (n + 1)]? = w[k]?
  counts : Counts s.counters w
  val : ∀ f, s.cum.val f = total f w
  rest : s.cum.rest = fun _ => 0

theorem init_holds {n : Nat} (h : 2 ≤ n) : ∃ s, init n = some s ∧ Holds n s [] := by
  unfold init
  rw [if_neg (by omega)]
  exact ⟨_, rfl, h, rfl, by simp, by simp, rfl, by simp, by intro k hk; simp at hk, counts_zero, fun _ => rfl, rfl⟩

theorem flush_holds {n : Nat} {s : St} {w : List Ent} (h : Holds n s w) : Holds n (flush s) [] :=
  ⟨h.two, h.max, h.len, h.newest, rfl, by simp, by intro k hk; simp at hk, counts_zero, fun _ => rfl, rfl⟩

theorem incoming_lt {n : Nat} {s : St} {w : List Ent} (h : Holds n s w) : incoming s < n + 1 := by
  unfold incoming; rw [h.max]; exact Nat.mod_lt _ (by omega)

theorem incoming_ne {n : Nat} {s : St} {w : List Ent} (h : Holds n s w) (k : Nat) (hk : k < w.length) :
    incoming s ≠ (s.newest + (n + 1) - k) % (n + 1) := by
  have h1 := h.newest
  have h2 := h.le
  unfold incoming
  rw [h.max, mod1 h1, modk h1 (by omega)]
  split <;> split <;> omega

theorem write_holds {n : Nat} {s : St} {w : List Ent} (h : Holds n s w) (e : Ent) :
    ∃ s', write s e = some s' ∧ Holds n s' w ∧ s'.entries[incoming s']? = some e ∧
      s'.avg = s.avg ∧ s'.divider = s.divider := by
  have hi := incoming_lt h
  have hl := h.len
  unfold write
  rw [if_pos (by omega)]
  refine ⟨_, rfl, ⟨h.two, h.max, by simp only [List.length_set]; exact hl, h.newest, h.count, h.le, ?_, h.counts, h.val, h.rest⟩, ?_, rfl, rfl⟩
  · intro k hk
    simp only []
    rw [List.getElem?_set_ne (incoming_ne h k hk)]
    exact h.at_ k hk
  · show (s.entries.set (incoming s) e)[incoming s]? = some e
    rw [List.getElem?_set_self (by omega)]

theorem oldest_eq {n : Nat} {s : St} {w : List Ent} (h : Holds n s w) (hf : w.length = n) :
    oldest s = (s.newest + (n + 1) - (n - 1)) % (n + 1) := by
  have h1 := h.newest
  have h2 := h.two
  have hi := incoming_lt h
  unfold oldest
  rw [if_pos (by rw [h.count]; omega), h.max, h.count, hf, modk hi (by omega), modk h1 (by omega)]
  unfold incoming
  rw [h.max, mod1 h1]
  split <;> (repeat' split) <;> omega

/-- The removal of the oldest entry. -/
theorem makeRoom_holds {n : Nat} {s : St} {w : List Ent} (h : Holds n s w) :
    ∃ s', makeRoom s = some s' ∧ Holds n s' (w.take (n - 1)) ∧ incoming s' = incoming s ∧ s'.entries = s.entries := by
  have h2 := h.two
  have hle := h.le
  unfold makeRoom
  by_cases hf : w.length = n
  · rw [if_pos (by rw [h.count, h.max]; omega)]
    have hne : w ≠ [] := by intro e; rw [e] at hf; simp at hf; omega
    have hw : w = w.take (n - 1) ++ [w.getLast hne] := by
      rw [show n - 1 = w.length - 1 by omega, ← List.dropLast_eq_take, List.dropLast_concat_getLast]
    have ho : s.entries[oldest s]? = some (w.getLast hne) := by
      rw [oldest_eq h hf, h.at_ (n - 1) (by omega), List.getLast_eq_getElem, List.getElem?_eq_getElem (by omega)]
      simp only [hf]
    rw [ho]
    simp only []
    obtain ⟨c', hc, hcc⟩ := update_del (e := w.getLast hne) (w := w.take (n - 1)) (by rw [← hw]; exact h.counts) n
    unfold change
    rw [if_pos (Or.inl ⟨rfl, by rw [h.count, h.max]; omega⟩), h.max, hc]
    have hl : (w.take (n - 1)).length = n - 1 := by rw [List.length_take]; omega
    refine ⟨_, rfl, ⟨h2, rfl, h.len, h.newest, ?_, ?_, ?_, hcc, ?_, h.rest⟩, ?_, rfl⟩
    · simp only [Bool.false_eq_true, if_false]; rw [h.count, hl, hf]
    · omega
    · intro k hk
      simp only []
      rw [hl] at hk
      rw [h.at_ k (by omega), List.getElem?_take_of_lt hk]
    · intro f
      have ht := total_append f (w.getLast hne) (w.take (n - 1))
      rw [← hw] at ht
      simp only [determine, accumulate, Bool.false_eq_true, if_false]
      rw [h.val f, ht]; omega
    · unfold incoming; simp only []; rw [h.max]
  · rw [if_neg (by rw [h.count, h.max]; omega)]
    rw [List.take_of_length_le (by omega)]
    exact ⟨s, rfl, h, rfl, rfl⟩

/-- The average shows the window. -/
structure Shows (s : St) (w : List Ent) : Prop where
  flag : ∀ f, s.avg.flag f = decide (s.counters.flag f ≥ w.length)
  sig : s.avg.sig = sigOf s.counters w.length
  fix : s.avg.fix = fixOf s.counters w.length
  val : ∀ f, s.avg.val f = total f w
  rest : s.avg.rest = fun _ => 0
  div : s.divider = w.length
  last : ∃ e, w.head? = some e ∧ s.avg.utc = e.utc ∧ s.avg.sats = e.sats
  counts : Counts s.counters w

theorem addNew_holds {n : Nat} {s : St} {w : List Ent} (h : Holds n s w) (e : Ent)
    (he : s.entries[incoming s]? = some e) :
    ∃ s', addNew s = some s' ∧ Holds n s' ((e :: w).take n) ∧ Shows s' ((e :: w).take n) := by
  have h2 := h.two
  obtain ⟨s1, hs1, h1, hi, hent⟩ := makeRoom_holds h
  obtain ⟨v, hv⟩ : ∃ v, v = w.take (n - 1) := ⟨_, rfl⟩
  have hvl : v.length < n := by rw [hv, List.length_take]; omega
  have htk : (e :: w).take n = e :: v := by
    rw [hv, show n = (n - 1) + 1 by omega, List.take_succ_cons]; simp
  rw [← hv] at h1
  rw [htk]
  unfold addNew
  rw [hs1]
  simp only []
  rw [hi, hent, he]
  simp only []
  obtain ⟨c', hc, hcc⟩ := update_add h1.counts e n hvl
  have hlt := h1.newest
  unfold change
  rw [if_pos (Or.inr ⟨rfl, by rw [h1.count, h1.max]; omega⟩), h1.max, hc]
  refine ⟨_, rfl, ⟨h2, rfl, h1.len, ?_, ?_, by simp; omega, ?_, hcc, ?_, h1.rest⟩, ?_⟩
  · show (s1.newest + 1) % (n + 1) < n + 1
    exact Nat.mod_lt _ (by omega)
  · simp only [if_true, List.length_cons]; rw [h1.count]
  · intro k hk
    show s1.entries[((s1.newest + 1) % (n + 1) + (n + 1) - k) % (n + 1)]? = (e :: v)[k]?
    rw [List.length_cons] at hk
    have hm : (s1.newest + 1) % (n + 1) < n + 1 := Nat.mod_lt _ (by omega)
    cases k with
    | zero =>
      rw [Nat.sub_zero, Nat.add_mod_right, Nat.mod_eq_of_lt hm, List.getElem?_cons_zero, hent, ← he, ← hi]
      unfold incoming
      rw [h1.max]
    | succ k =>
      rw [List.getElem?_cons_succ, ← h1.at_ k (by omega)]
      congr 1
      rw [modk hm (by omega), modk hlt (by omega), mod1 hlt]
      (repeat' split) <;> omega
  · intro f
    simp only [determine, accumulate, if_true, total]
    rw [h1.val f]; omega
  · refine ⟨fun f => ?_, ?_, ?_, fun f => ?_, h1.rest, ?_, ⟨e, rfl, rfl, rfl⟩, hcc⟩
    · simp only [determine, if_true, List.length_cons]; rw [h1.count]
    · simp only [determine, if_true, List.length_cons]; rw [h1.count]
    · simp only [determine, if_true, List.length_cons]; rw [h1.count]
    · simp only [determine, accumulate, if_true, total]
      rw [h1.val f]; omega
    · simp only [if_true, List.length_cons]
      rw [h1.count]
      split <;> omega

/-- What holds after every event: the window, and the average if the window is not empty. -/
def Good (n : Nat) (s : St) (w : List Ent) : Prop := Holds n s w ∧ (w ≠ [] → Shows s w)

theorem write_counters (s s' : St) (e : Ent) (h : write s e = some s') : s'.counters = s.counters := by
  unfold write at h
  split at h
  · cases h; rfl
  · cases h

theorem step_good {n : Nat} {s : St} {w : List Ent} (h : Good n s w) (ev : Ev) :
    ∃ s', step s ev = some s' ∧ Good n s' (slide n w ev) := by
  cases ev with
  | fill e =>
    obtain ⟨s', h1, h2, h3, h4, h5⟩ := write_holds h.1 e
    refine ⟨s', h1, h2, fun hw => ?_⟩
    have hs := h.2 hw
    have hc := write_counters s s' e h1
    exact ⟨fun f => by rw [h4, hc]; exact hs.flag f, by rw [h4, hc]; exact hs.sig, by rw [h4, hc]; exact hs.fix,
      fun f => by rw [h4]; exact hs.val f, by rw [h4]; exact hs.rest, by rw [h5]; exact hs.div,
      by rw [h4]; exact hs.last, by rw [hc]; exact hs.counts⟩
  | take fl e =>
    obtain ⟨s1, h1, h2, h3, _⟩ := write_holds h.1 e
    rw [show step s (.take fl e) = (write s e).bind fun s1 => addNew (if fl = true then flush s1 else s1) from rfl, h1]
    cases fl with
    | true =>
      obtain ⟨s', h5, h6, h7⟩ := addNew_holds (flush_holds h2) e h3
      refine ⟨s', h5, ?_⟩
      have ht : [e].take n = [e] := List.take_of_length_le (by have := h2.two; simp; omega)
      rw [ht] at h6 h7
      exact ⟨h6, fun _ => h7⟩
    | false =>
      obtain ⟨s', h5, h6, h7⟩ := addNew_holds h2 e h3
      exact ⟨s', h5, h6, fun _ => h7⟩

theorem run_good {n : Nat} : ∀ (es : List Ev) {s : St} {w : List Ent}, Good n s w →
    ∃ s', run s es = some s' ∧ Good n s' (window n w es)
  | [], s, _, h => ⟨s, rfl, h⟩
  | e :: es, s, w, h => by
    obtain ⟨s1, h1, h2⟩ := step_good h e
    obtain ⟨s2, h3, h4⟩ := run_good es h2
    refine ⟨s2, ?_, h4⟩
    unfold run
    rw [h1]
    exact h3

theorem run_init {n : Nat} (h : 2 ≤ n) (es : List Ev) :
    ∃ s0 s, init n = some s0 ∧ run s0 es = some s ∧ Good n s (window n [] es) := by
  obtain ⟨s0, h1, h2⟩ := init_holds h
  obtain ⟨s, h3, h4⟩ := run_good es (⟨h2, fun hw => absurd rfl hw⟩ : Good n s0 [])
  exact ⟨s0, s, h1, h3, h4⟩

end Verif.PosAvg
