import Verif.PosAvgLemmas

/-!
# C144: the average of the positions is that of the last ones

`window n [] es` (PosAvgSpec) are the entries that count after the events `es`: the last `n` since the last flush, the newest first.
-/

namespace Verif.PosAvg

private theorem count_all (p : Ent → Bool) (w : List Ent) (c : Nat) (h : c = w.countP p) :
    c ≥ w.length ↔ ∀ e ∈ w, p e = true := by
  have := List.countP_le_length (p := p) (l := w)
  have hiff := List.countP_eq_length (p := p) (l := w)
  rw [← hiff]; omega

private theorem count_none (p : Ent → Bool) (w : List Ent) (c : Nat) (h : c = w.countP p) :
    c = 0 ↔ ∀ e ∈ w, p e = false := by
  rw [h, List.countP_eq_zero]; simp

private theorem count_some (p : Ent → Bool) (w : List Ent) (c : Nat) (h : c = w.countP p) :
    c > 0 ↔ ∃ e ∈ w, p e = true := by
  rw [h]; exact List.countP_pos_iff

private theorem fix_worst {c : Counters} {w : List Ent} (h : Counts c w) (hw : w ≠ [])
    (hp : ∀ e ∈ w, e.flag 4 = true) :
    (∃ e ∈ w, fixOf c w.length = e.fix) ∧ ∀ e ∈ w, fixGrade (fixOf c w.length) ≤ fixGrade e.fix := by
  have key : ∀ v, ∀ e ∈ w, (isFix e v = true ↔ e.fix = v) := by
    intro v e he; unfold isFix; rw [hp e he]; simp
  unfold fixOf
  rw [if_pos ((count_all (·.flag 4) w _ (h.flag 4)).mpr hp)]
  by_cases hb : c.fixBad = 0
  · rw [if_pos hb]
    have hnb := (count_none (isFix · .bad) w _ h.fb).mp hb
    have hb' : ∀ e ∈ w, e.fix ≠ .bad := fun e he hx => by
      have := (key .bad e he).mpr hx; rw [hnb e he] at this; cases this
    by_cases h3 : c.fix3d ≥ w.length
    · rw [if_pos h3]
      have ha := (count_all (isFix · .d3) w _ h.f3).mp h3
      have ha' : ∀ e ∈ w, e.fix = .d3 := fun e he => (key .d3 e he).mp (ha e he)
      obtain ⟨e, he⟩ := List.exists_mem_of_ne_nil w hw
      exact ⟨⟨e, he, (ha' e he).symm⟩, fun e he => by rw [ha' e he]; decide⟩
    · rw [if_neg h3]
      by_cases h2 : c.fix2d > 0
      · rw [if_pos h2]
        obtain ⟨e, he, hx⟩ := (count_some (isFix · .d2) w _ h.f2).mp h2
        refine ⟨⟨e, he, ((key .d2 e he).mp hx).symm⟩, fun x hx => ?_⟩
        have := hb' x hx
        cases hxx : x.fix <;> first | decide | exact absurd hxx this
      · exfalso
        apply h3
        rw [count_all (isFix · .d3) w _ h.f3]
        intro e he
        have hn2 := (count_none (isFix · .d2) w _ h.f2).mp (by omega)
        rw [key .d3 e he]
        cases hxx : e.fix with
        | d3 => rfl
        | d2 => have := (key .d2 e he).mpr hxx; rw [hn2 e he] at this; cases this
        | bad => exact absurd hxx (hb' e he)
  · rw [if_neg hb]
    obtain ⟨e, he, hx⟩ := (count_some (isFix · .bad) w _ h.fb).mp (by omega)
    exact ⟨⟨e, he, ((key .bad e he).mp hx).symm⟩, fun x _ => Nat.zero_le _⟩

private theorem sig_worst {c : Counters} {w : List Ent} (h : Counts c w) (hw : w ≠ [])
    (hp : ∀ e ∈ w, e.flag 3 = true)
    (hx : (∀ e ∈ w, e.sig ≠ .differential) ∨ (∀ e ∈ w, e.sig ≠ .fix)) :
    (∃ e ∈ w, sigOf c w.length = e.sig) ∧ ∀ e ∈ w, grade (sigOf c w.length) ≤ grade e.sig := by
  have key : ∀ v, ∀ e ∈ w, (isSig e v = true ↔ e.sig = v) := by
    intro v e he; unfold isSig; rw [hp e he]; simp
  unfold sigOf
  rw [if_pos ((count_all (·.flag 3) w _ (h.flag 3)).mpr hp)]
  by_cases hb : c.sigBad = 0
  · rw [if_pos hb]
    have hnb := (count_none (isSig · .other) w _ h.sb).mp hb
    have hb' : ∀ e ∈ w, e.sig ≠ .other := fun e he hx => by
      have := (key .other e he).mpr hx; rw [hnb e he] at this; cases this
    by_cases h3 : c.sigHigh ≥ w.length
    · rw [if_pos h3]
      have ha := (count_all (isSig · .sensitive) w _ h.sh).mp h3
      have ha' : ∀ e ∈ w, e.sig = .sensitive := fun e he => (key .sensitive e he).mp (ha e he)
      obtain ⟨e, he⟩ := List.exists_mem_of_ne_nil w hw
      exact ⟨⟨e, he, (ha' e he).symm⟩, fun e he => by rw [ha' e he]; decide⟩
    · rw [if_neg h3]
      by_cases h2 : c.sigMid > 0
      · rw [if_pos h2]
        obtain ⟨e, he, hm⟩ := (count_some (isSig · .differential) w _ h.sm).mp h2
        have hm' := (key .differential e he).mp hm
        refine ⟨⟨e, he, hm'.symm⟩, fun x hxm => ?_⟩
        have hnf : x.sig ≠ .fix := by
          rcases hx with hx | hx
          · exact absurd hm' (hx e he)
          · exact hx x hxm
        have := hb' x hxm
        cases hxx : x.sig <;> first | decide | exact absurd hxx this | exact absurd hxx hnf
      · rw [if_neg h2]
        have hn2 := (count_none (isSig · .differential) w _ h.sm).mp (by omega)
        have hnd : ∀ e ∈ w, e.sig ≠ .differential := fun e he hx => by
          have := (key .differential e he).mpr hx; rw [hn2 e he] at this; cases this
        by_cases h1 : c.sigLow > 0
        · rw [if_pos h1]
          obtain ⟨e, he, hm⟩ := (count_some (isSig · .fix) w _ h.sl).mp h1
          refine ⟨⟨e, he, ((key .fix e he).mp hm).symm⟩, fun x hxm => ?_⟩
          have := hb' x hxm
          cases hxx : x.sig <;> first | decide | exact absurd hxx this
        · exfalso
          apply h3
          rw [count_all (isSig · .sensitive) w _ h.sh]
          intro e he
          have hn1 := (count_none (isSig · .fix) w _ h.sl).mp (by omega)
          rw [key .sensitive e he]
          cases hxx : e.sig with
          | sensitive => rfl
          | differential => exact absurd hxx (hnd e he)
          | fix => have := (key .fix e he).mpr hxx; rw [hn1 e he] at this; cases this
          | other => exact absurd hxx (hb' e he)
  · rw [if_neg hb]
    obtain ⟨e, he, hx⟩ := (count_some (isSig · .other) w _ h.sb).mp (by omega)
    exact ⟨⟨e, he, ((key .other e he).mp hx).symm⟩, fun x _ => Nat.zero_le _⟩

/-- For every size of the list and every series of events: no assertion fails and no memory outside of the list is touched; and
once there is an entry, the values of the average are the sums over the window divided by the number of its entries, a flag
is set exactly if all entries of the window have it, and time and satellites are those of the newest entry. -/
theorem C144_average (n : Nat) (hn : 2 ≤ n) (es : List Ev) :
    ∃ s0 s, init n = some s0 ∧ run s0 es = some s ∧
      (window n [] es ≠ [] →
        (∀ f, s.avg.val f = total f (window n [] es)) ∧ s.divider = (window n [] es).length ∧
        (∀ f, s.avg.flag f = true ↔ ∀ e ∈ window n [] es, e.flag f = true) ∧
        ∃ e, (window n [] es).head? = some e ∧ s.avg.utc = e.utc ∧ s.avg.sats = e.sats) := by
  obtain ⟨s0, s, h1, h2, h3, h4⟩ := run_init hn es
  refine ⟨s0, s, h1, h2, fun hw => ?_⟩
  have h := h4 hw
  exact ⟨h.val, h.div, fun f => by
    rw [h.flag f, decide_eq_true_eq]; exact count_all (·.flag f) _ _ (h.counts.flag f), h.last⟩

/-- An entry for the examples: all flags but the last, the same number for all values. -/
private def ent (v : Int) (sig : Sig) (fix : Fix) : Ent :=
  ⟨fun f => decide (f ≠ 26), fun _ => v, fun _ => v, sig, fix, 7, 8⟩

example : ((init 2).bind fun s => run s [.take false (ent 5 .fix .d3), .take true (ent 3 .fix .d3), .fill (ent 9 .other .bad),
      .take false (ent 4 .fix .d2), .take false (ent 6 .sensitive .d3)]).map
      (fun s => (s.avg.val 3, s.divider, s.avg.flag 0, s.avg.flag 26, s.avg.fix, s.avg.sig)) =
    some (10, 2, true, false, .d2, .fix) := by decide +kernel

/-- The fix of the average is the worst of the window if all entries have one, and bad otherwise. -/
theorem C144_fix (n : Nat) (hn : 2 ≤ n) (es : List Ev) (hw : window n [] es ≠ []) :
    ∃ s0 s, init n = some s0 ∧ run s0 es = some s ∧
      ((∀ e ∈ window n [] es, e.flag 4 = true) →
        (∃ e ∈ window n [] es, s.avg.fix = e.fix) ∧ ∀ e ∈ window n [] es, fixGrade s.avg.fix ≤ fixGrade e.fix) ∧
      ((∃ e ∈ window n [] es, e.flag 4 = false) → s.avg.fix = .bad) := by
  obtain ⟨s0, s, h1, h2, h3, h4⟩ := run_init hn es
  have h := h4 hw
  refine ⟨s0, s, h1, h2, fun hp => ?_, fun hp => ?_⟩
  · rw [h.fix]; exact fix_worst h.counts hw hp
  · rw [h.fix]; unfold fixOf
    rw [if_neg]
    intro hc
    obtain ⟨e, he, hf⟩ := hp
    have := (count_all (·.flag 4) _ _ (h.counts.flag 4)).mp hc e he
    rw [hf] at this; cases this

example : ((init 3).bind fun s => run s [.take false (ent 5 .fix .d3), .take false (ent 3 .fix .d2)]).map (·.avg.fix) =
    some .d2 := by decide +kernel

/-- The signal of the average is the worst of the window if all entries have one and "differential" does not occur together
with "fix"; it is invalid if an entry has none.

What is missing for the full property: windows with both, see `C144_sig_negation`. -/
theorem C144_sig_partial (n : Nat) (hn : 2 ≤ n) (es : List Ev) (hw : window n [] es ≠ []) :
    ∃ s0 s, init n = some s0 ∧ run s0 es = some s ∧
      ((∀ e ∈ window n [] es, e.flag 3 = true) →
        ((∀ e ∈ window n [] es, e.sig ≠ .differential) ∨ (∀ e ∈ window n [] es, e.sig ≠ .fix)) →
        (∃ e ∈ window n [] es, s.avg.sig = e.sig) ∧ ∀ e ∈ window n [] es, grade s.avg.sig ≤ grade e.sig) ∧
      ((∃ e ∈ window n [] es, e.flag 3 = false) → s.avg.sig = .other) := by
  obtain ⟨s0, s, h1, h2, h3, h4⟩ := run_init hn es
  have h := h4 hw
  refine ⟨s0, s, h1, h2, fun hp hx => ?_, fun hp => ?_⟩
  · rw [h.sig]; exact sig_worst h.counts hw hp hx
  · rw [h.sig]; unfold sigOf
    rw [if_neg]
    intro hc
    obtain ⟨e, he, hf⟩ := hp
    have := (count_all (·.flag 3) _ _ (h.counts.flag 3)).mp hc e he
    rw [hf] at this; cases this

example : ((init 3).bind fun s => run s [.take false (ent 5 .sensitive .d3), .take false (ent 3 .differential .d2)]).map (·.avg.sig) =
    some .differential := by decide +kernel

/-- "The sig … will be set to the lowest/worst value of all entries": of a differential signal and a worse one the average has
the better. -/
theorem C144_sig_negation : ∃ s0 s a b, init 2 = some s0 ∧ a.flag 3 = true ∧ b.flag 3 = true ∧
    grade b.sig < grade a.sig ∧ run s0 [.take false a, .take false b] = some s ∧ s.avg.sig = a.sig := by
  obtain ⟨s0, s, h1, h2, h3⟩ := run_init (n := 2) (by decide)
    [.take false (ent 5 .differential .d3), .take false (ent 3 .fix .d3)]
  refine ⟨s0, s, ent 5 .differential .d3, ent 3 .fix .d3, h1, by decide, by decide, by decide, h2, ?_⟩
  have hs := h3.2 (by simp [window, slide])
  rw [hs.sig]
  have hw : window 2 [] [.take false (ent 5 .differential .d3), .take false (ent 3 .fix .d3)] =
      [ent 3 .fix .d3, ent 5 .differential .d3] := rfl
  have hc := hs.counts
  rw [hw] at hc ⊢
  unfold sigOf
  rw [hc.flag 3, hc.sb, hc.sh, hc.sm, hc.sl]
  decide

/-- Height, age and station of the differential correction are said to be there if all entries have them, but the average
has 0 for them whatever the entries say. -/
theorem C144_rest (n : Nat) (hn : 2 ≤ n) (es : List Ev) (hw : window n [] es ≠ []) :
    ∃ s0 s, init n = some s0 ∧ run s0 es = some s ∧ ∀ f, s.avg.rest f = 0 := by
  obtain ⟨s0, s, h1, h2, h3, h4⟩ := run_init hn es
  exact ⟨s0, s, h1, h2, fun f => by rw [(h4 hw).rest]⟩

example : ((init 2).bind fun s => run s [.take false (ent 5 .fix .d3), .take false (ent 5 .fix .d3)]).map
      (fun s => (s.avg.flag 19, s.avg.rest 0)) = some (true, 0) := by decide +kernel

/-- A list for less than two entries is refused. -/
theorem C144_small (n : Nat) : init n = none ↔ n < 2 := by
  unfold init
  by_cases h : n < 2
  · rw [if_pos h]; exact ⟨fun _ => h, fun _ => rfl⟩
  · rw [if_neg h]; exact ⟨(fun e => by cases e), fun e => absurd e h⟩

end Verif.PosAvg
