import Verif.MprLemmas

/-!
C23, C24 and C51 for the MPR selection without link quality.

The specifications speak about the neighbourhood before the selection (`e`, `s`)
and about the flag `isMpr` after it.
-/
namespace Verif.Mpr

/-- `t` is a two-hop neighbour that is not itself a symmetric neighbour. -/
def Strict (e : Env) (s : St) (t : Nat) : Prop :=
  ∀ p, e.lookup (s.two t).addr = some p → (s.nbr p).sym = false

/-- The two tables describe one graph: no entry is listed twice, pointers lead
into the tables, links are recorded at both ends, and `neighbor_2_pointer`
counts them. -/
structure Wf (e : Env) (s : St) : Prop where
  nodup : e.table.Nodup
  lists : ∀ p ∈ e.table, (s.nbr p).list.Nodup ∧ ∀ t ∈ (s.nbr p).list, t ∈ e.twoTable
  back : ∀ t ∈ e.twoTable, ∀ p ∈ (s.two t).nblist, p ∈ e.table
  link : ∀ p ∈ e.table, ∀ t ∈ e.twoTable, t ∈ (s.nbr p).list ↔ p ∈ (s.two t).nblist
  pointer : ∀ t ∈ e.twoTable, (s.two t).pointer = (s.two t).nblist.length

/-- What C24 demands of a finished selection: every strict two-hop neighbour
that a willing symmetric neighbour reaches is adjacent to a relay. -/
def Covers (e : Env) (s : St) (after : St) : Prop :=
  ∀ t ∈ e.twoTable, Strict e s t →
    (∃ p ∈ (s.two t).nblist, (s.nbr p).sym = true ∧ (s.nbr p).will ≠ willNever) →
    ∃ q ∈ (s.two t).nblist, (after.nbr q).isMpr = true

private theorem strict_isSymNbr (e : Env) (s : St) (t : Nat) (h : Strict e s t) :
    isSymNbr e s t = false := by
  unfold isSymNbr
  split
  · rfl
  · next p hp => exact h p hp

/-- The state before the selection proper. -/
private theorem start (e : Env) (s : St) :
    Static s (calcTwoHop e (clearMprs e s)).1 ∧
    (∀ p ∈ e.table, ((calcTwoHop e (clearMprs e s)).1.nbr p).isMpr = false) ∧
    (∀ p ∈ e.table, ((calcTwoHop e (clearMprs e s)).1.nbr p).wasMpr =
      ((s.nbr p).wasMpr || (s.nbr p).isMpr)) ∧
    (∀ t, (∃ p ∈ e.table, t ∈ (s.nbr p).list) →
      ((calcTwoHop e (clearMprs e s)).1.two t).covered = 0) := by
  have h1 := clearMprs_static e s
  have h2 := calcTwoHop_static e (clearMprs e s)
  have h3 := calcTwoHop_same e (clearMprs e s)
  refine ⟨h1.trans h2, ?_, ?_, ?_⟩
  · intro p hp
    rw [(h3.1 p).1]
    unfold clearMprs
    rw [clearMprs_nbr, if_pos hp]
  · intro p hp
    rw [(h3.1 p).2]
    unfold clearMprs
    rw [clearMprs_nbr, if_pos hp]
  · intro t ht
    rw [h3.2]
    exact clearMprs_covered e.table s t ht

/-- What a finished run is made of. -/
private theorem run (e : Env) (s : St) (hnd : e.table.Nodup) (hback : Inside e s) (r : St × Bool)
    (h : calculate e s = some r) :
    ∃ b : St × Nat, Sel e ((calcTwoHop e (clearMprs e s)).1, 0) b ∧
      r = e.table.foldl check1 (optimize e b.1, false) := by
  obtain ⟨st1, st2, _, _⟩ := start e s
  unfold calculate choose at h
  simp only [Option.map_map, Option.map_eq_some_iff, Function.comp] at h
  obtain ⟨b, hb, hr⟩ := h
  refine ⟨b, ?_, hr.symm⟩
  obtain ⟨a1, _⟩ := addAlways_run e e.table ((calcTwoHop e (clearMprs e s)).1, 0) hnd
    (fun _ h => h) st2
  refine a1.trans (willLoop_run e _ 6 (Nat.le_refl 6) _ b ?_ hb)
  intro t ht p hp
  have hst := a1.static
  have : (p ∈ ((calcTwoHop e (clearMprs e s)).1.two t).nblist) := by
    rw [← hst.nblist]; exact hp
  rw [st1.nblist] at this
  exact hback t ht p this

private theorem optimize_static (e : Env) (s : St) : Static s (optimize e s) :=
  optimize_keeps e (fun s' => Static s s')
    (fun w _ s' p _ h => h.trans (optimize1_static e w s' p)) s (Static.refl s)

/-- C23, the half that holds of the selection without link quality: a selected
relay did not announce `WILL_NEVER`.  Missing from the property: that it is
symmetric; see `C23_rfc_asymmetric_selected`. -/
theorem C23_rfc_willing_partial (e : Env) (s : St) (hwf : Wf e s) (r : St × Bool)
    (h : calculate e s = some r) (p : Nat) (hp : p ∈ e.table)
    (hm : (r.1.nbr p).isMpr = true) : (s.nbr p).will ≠ willNever := by
  obtain ⟨b, hsel, rfl⟩ := run e s hwf.nodup hwf.back r h
  obtain ⟨st1, st2, _, _⟩ := start e s
  rw [check_isMpr] at hm
  have hb : (b.1.nbr p).isMpr = true := by
    have := optimize_keeps e (fun s' => (s'.nbr p).isMpr = true → (b.1.nbr p).isMpr = true)
      (fun w _ s' q _ hP hq => hP (optimize1_isMpr e w s' q p hq)) b.1 id
    exact this hm
  have := hsel.allowed p (st2 p hp) hb
  simp only [st1.sym, st1.will] at this
  show (s.nbr p).will ≠ 0
  rcases this with ⟨_, h2⟩ | ⟨h2, _⟩
  · rw [h2]; decide
  · omega

/-- C23, the first rule: a symmetric neighbour that always wants to be a relay
is one. -/
theorem C23_rfc_always_selected (e : Env) (s : St) (hwf : Wf e s) (r : St × Bool)
    (h : calculate e s = some r) (p : Nat) (hp : p ∈ e.table) (hs : (s.nbr p).sym = true)
    (hw : (s.nbr p).will = willAlways) : (r.1.nbr p).isMpr = true := by
  obtain ⟨st1, st2, _, _⟩ := start e s
  unfold calculate choose at h
  simp only [Option.map_map, Option.map_eq_some_iff, Function.comp] at h
  obtain ⟨b, hb, rfl⟩ := h
  obtain ⟨a1, a2⟩ := addAlways_run e e.table ((calcTwoHop e (clearMprs e s)).1, 0) hwf.nodup
    (fun _ h => h) st2
  have hsel := willLoop_run e _ 6 (Nat.le_refl 6) _ b (by
    intro t ht q hq
    have hst := a1.static
    have : (q ∈ ((calcTwoHop e (clearMprs e s)).1.two t).nblist) := by
      rw [← hst.nblist]; exact hq
    rw [st1.nblist] at this
    exact hwf.back t ht q this) hb
  have hmpr : (b.1.nbr p).isMpr = true := by
    apply hsel.mono
    apply a2 p hp
    · show ((calcTwoHop e (clearMprs e s)).1.nbr p).sym = true
      rw [st1.sym]; exact hs
    · show ((calcTwoHop e (clearMprs e s)).1.nbr p).will = willAlways
      rw [st1.will]; exact hw
  have hbw : (b.1.nbr p).will = willAlways := by
    have hst : Static s b.1 := (st1.trans a1.static).trans hsel.static
    rw [hst.will]; exact hw
  rw [check_isMpr]
  have := optimize_keeps e (fun s' => Static b.1 s' ∧ (s'.nbr p).isMpr = true) (by
    intro w hw2 s' q _ ⟨hst, hP⟩
    refine ⟨hst.trans (optimize1_static e w s' q), ?_⟩
    unfold optimize1
    split
    · exact hP
    · next hwq =>
      split
      · rw [putN_nbr]
        by_cases hpq : p = q
        · exfalso
          subst hpq
          simp only [List.mem_cons, List.not_mem_nil, or_false] at hw2
          simp only [Decidable.not_not] at hwq
          rw [hst.will, hbw] at hwq
          simp only [willAlways] at hwq
          omega
        · simp [hpq]; exact hP
      · exact hP) b.1 ⟨Static.refl _, hmpr⟩
  exact this.2

/-- C24 for two-hop neighbours seen by an always-willing symmetric neighbour:
they are covered.  Missing from the property: see `C24_uncovered_greedy` and
`C24_uncovered_optimized`. -/
theorem C24_always_partial (e : Env) (s : St) (hwf : Wf e s) (r : St × Bool)
    (h : calculate e s = some r) (t : Nat) (ht : t ∈ e.twoTable)
    (hreach : ∃ p ∈ (s.two t).nblist, (s.nbr p).sym = true ∧ (s.nbr p).will = willAlways) :
    ∃ q ∈ (s.two t).nblist, (r.1.nbr q).isMpr = true := by
  obtain ⟨p, hp, hs, hw⟩ := hreach
  exact ⟨p, hp, C23_rfc_always_selected e s hwf r h p (hwf.back t ht p hp) hs hw⟩

private theorem sum_le : ∀ (l : List Nat) (f g : Nat → Nat), (∀ p ∈ l, f p ≤ g p) →
    (l.map f).sum ≤ (l.map g).sum := by
  intro l
  induction l with
  | nil => intro f g _; simp
  | cons x l ih =>
    intro f g h
    simp only [List.map_cons, List.sum_cons]
    have := ih f g (fun p hp => h p (List.mem_cons_of_mem _ hp))
    have := h x (by simp)
    omega

private theorem sum_lt : ∀ (l : List Nat) (f g : Nat → Nat) (p : Nat), p ∈ l →
    (∀ q ∈ l, f q ≤ g q) → f p < g p → (l.map f).sum < (l.map g).sum := by
  intro l
  induction l with
  | nil => intro f g p hp; cases hp
  | cons x l ih =>
    intro f g p hp h hlt
    simp only [List.map_cons, List.sum_cons]
    have hx := h x (by simp)
    rcases List.mem_cons.1 hp with rfl | hp
    · have := sum_le l f g (fun q hq => h q (List.mem_cons_of_mem _ hq))
      omega
    · have := ih f g p hp (fun q hq => h q (List.mem_cons_of_mem _ hq)) hlt
      omega

/-- C24 for two-hop neighbours with one link.  In a neighbourhood whose
non-symmetric neighbours list nothing and whose size keeps the 16-bit counters
from wrapping, the selection ends without a fault, and the only neighbour of a
strict two-hop neighbour is selected if it is symmetric and willing.
Missing from the property: two-hop neighbours with several links, for which it
is false; see `C24_uncovered_greedy` and `C24_uncovered_optimized`. -/
theorem C24_single_link_partial (e : Env) (s : St) (hwf : Wf e s)
    (hcov : 1 ≤ e.coverage)
    (hasym : ∀ p ∈ e.table, (s.nbr p).sym = false → (s.nbr p).list = [])
    (hsize : e.table.length * (e.table.map fun p => (s.nbr p).list.length).sum < 65536) :
    ∃ r, calculate e s = some r ∧
      ∀ t ∈ e.twoTable, Strict e s t → ∀ p, (s.two t).nblist = [p] → (s.nbr p).sym = true →
        1 ≤ (s.nbr p).will → (s.nbr p).will ≤ willAlways → (r.1.nbr p).isMpr = true := by
  obtain ⟨st1, st2, _, st4⟩ := start e s
  obtain ⟨a1, a2⟩ := addAlways_run e e.table ((calcTwoHop e (clearMprs e s)).1, 0) hwf.nodup
    (fun _ h => h) st2
  have hstA : Static s (addAlways e (calcTwoHop e (clearMprs e s)).1).1 := st1.trans a1.static
  obtain ⟨b, b1, b2, b3⟩ := willLoop_ones e (calcTwoHop e (clearMprs e s)).2.sum 6 (Nat.le_refl 6)
    (addAlways e (calcTwoHop e (clearMprs e s)).1)
    (by intro t ht p hp; rw [hstA.nblist] at hp; exact hwf.back t ht p hp)
    (by intro t ht; rw [hstA.pointer, hstA.nblist]; exact hwf.pointer t ht)
  have hcalc : calculate e s = some (e.table.foldl check1 (optimize e b.1, false)) := by
    unfold calculate choose
    simp only
    rw [b1]
    rfl
  refine ⟨_, hcalc, ?_⟩
  intro t ht hstrict p hnb hsym hw1 hw2
  have hpt : p ∈ e.table := hwf.back t ht p (by rw [hnb]; simp)
  by_cases hw7 : (s.nbr p).will = willAlways
  · exact C23_rfc_always_selected e s hwf _ hcalc p hpt hsym hw7
  have hns := strict_isSymNbr e s t hstrict
  have htl : t ∈ (s.nbr p).list := (hwf.link p hpt t ht).2 (by rw [hnb]; simp)
  have hsel : Sel e ((calcTwoHop e (clearMprs e s)).1, 0) b := a1.trans b2
  have hstB : Static s b.1 := st1.trans hsel.static
  have hmpr : (b.1.nbr p).isMpr = true := by
    rcases b3 with b3 | b3
    · -- the count was reached: then every neighbour with a link is a relay
      by_contra hno
      have hno : (b.1.nbr p).isMpr = false := by simpa using hno
      have hc := hsel.count hwf.nodup (Nat.zero_le _)
      have hsum : symSum e s e.table ≤ (calcTwoHop e (clearMprs e s)).2.sum := by
        have hst0 : Static s (clearProcessed e (clearMprs e s)) :=
          (clearMprs_static e s).trans (clearProcessed_static e _)
        have hT : links s e.table < 65536 := by
          have : 1 ≤ e.table.length := List.length_pos_of_mem hpt
          have h2 : 1 * links s e.table ≤ e.table.length * links s e.table :=
            Nat.mul_le_mul_right _ this
          have : e.table.length * links s e.table < 65536 := hsize
          omega
        have := countNbrs_sum e (links s e.table) e.table
          (clearProcessed e (clearMprs e s), ⟨0, 0, 0⟩) []
          ⟨List.nodup_nil, by
            intro u hu
            have := ((clearProcessed_eq e.twoTable (clearMprs e s)).2 u).2 hu
            show ((clearProcessed e (clearMprs e s)).two u).processed = true ↔ _
            unfold clearProcessed
            rw [this]; simp, rfl⟩
          (by
            intro q hq
            show ((clearProcessed e (clearMprs e s)).nbr q).list.Nodup ∧ _
            simp only [hst0.list]
            exact hwf.lists q hq)
          (by
            show 0 + links (clearProcessed e (clearMprs e s)) e.table ≤ _
            rw [hst0.links]; omega)
          (by show 0 + e.table.length * links s e.table < 65536; rw [Nat.zero_add]; exact hsize) hT
        simp only [hst0.symSum, Nat.zero_add] at this
        exact this
      have hlt : mprSum e b.1 < symSum e s e.table := by
        unfold mprSum symSum
        apply sum_lt e.table _ _ p hpt
        · intro q hq
          rw [hstB.n2]
          by_cases hqs : (s.nbr q).sym = true
          · simp only [hqs, if_true]; split <;> omega
          · have : n2 e s q = 0 := by
              unfold n2
              rw [hasym q hq (by simpa using hqs)]; rfl
            rw [this]; simp
        · rw [hno, hsym, if_pos rfl]
          have : 0 < n2 e s p := by
            unfold n2
            apply List.length_pos_of_mem (a := t)
            rw [List.mem_filter]
            exact ⟨htl, by rw [hns]; rfl⟩
          simpa using this
      omega
    · apply b3 t ht p
      · rw [hstA.nblist]; exact hnb
      · rw [hstA.isSymNbr]; exact hns
      · rw [hstA.sym]; exact hsym
      · rw [hstA.will]; exact hw1
      · rw [hstA.will]
        simp only [willAlways] at hw2 hw7
        omega
  have hcovered : (b.1.two t).covered = 1 := by
    have := hsel.covered p t (by rw [st1.list]; exact htl)
      (by rw [st1.list]; exact (hwf.lists p hpt).1)
      (by
        intro q hq hqt
        rw [st1.list] at hqt
        have := (hwf.link q hq t ht).1 hqt
        rw [hnb] at this
        simpa using this)
      (by rw [st1.isSymNbr]; exact hns)
      (by
        show ((calcTwoHop e (clearMprs e s)).1.two t).covered = _
        rw [st4 t ⟨p, hpt, htl⟩, st2 p hpt]; rfl)
    rw [this, hmpr]; rfl
  rw [check_isMpr]
  have := optimize_keeps e
    (fun s' => Static s s' ∧ (s'.two t).covered = 1 ∧ (s'.nbr p).isMpr = true) (by
    intro w _ s' q _ ⟨h1, h2, h3⟩
    refine ⟨h1.trans (optimize1_static e w s' q), by rw [optimize1_two]; exact h2, ?_⟩
    unfold optimize1
    split
    · exact h3
    · split
      · next hrem =>
        rw [putN_nbr]
        by_cases hpq : p = q
        · subst hpq
          have hr := hrem.2
          unfold removable at hr
          rw [List.all_eq_true] at hr
          have := hr t (by rw [h1.list]; exact htl)
          rw [h1.isSymNbr, hns, h2] at this
          simp at this
          omega
        · simp [hpq]; exact h3
      · exact h3) b.1 ⟨hstB, hcovered, hmpr⟩
  exact this.2.2

/-! ### Witnesses -/

/-- A neighbourhood given by rows (neighbour, symmetric, willingness, two-hop
neighbours), with nothing selected so far. -/
def graph (rows : List (Nat × Bool × Nat × List Nat)) : St where
  nbr := fun p =>
    match rows.find? (fun n => n.1 == p) with
    | some n => ⟨n.2.1, n.2.2.1, false, false, 0, n.2.2.2⟩
    | none => ⟨false, 0, false, false, 0, []⟩
  two := fun t =>
    ⟨t, 0, false, ((rows.filter fun n => n.2.2.2.contains t).map (·.1)).length,
      (rows.filter fun n => n.2.2.2.contains t).map (·.1)⟩

/-- Its tables; no two-hop neighbour is a neighbour. -/
def env (rows : List (Nat × Bool × Nat × List Nat)) (twos : List Nat) (coverage : Nat) : Env :=
  ⟨rows.map (·.1), twos, fun _ => none, coverage⟩

/-- Neighbour 1 is the only way to 11; 2 and 3 both see 20. -/
def rowsA : List (Nat × Bool × Nat × List Nat) :=
  [(1, true, 3, [11]), (2, true, 3, [20]), (3, true, 3, [20])]

/-- Neighbours 3 to 6 have a two-hop neighbour of their own and all see 10;
neighbours 1 and 2 see 10 and 11. -/
def rowsB : List (Nat × Bool × Nat × List Nat) :=
  [(1, true, 3, [10, 11]), (2, true, 3, [10, 11]), (3, true, 3, [10, 21]),
   (4, true, 3, [10, 22]), (5, true, 3, [10, 23]), (6, true, 3, [10, 24])]

/-- Neighbour 2 is not symmetric. -/
def rowsC : List (Nat × Bool × Nat × List Nat) :=
  [(1, true, 3, [20]), (3, true, 3, [20]), (2, false, 3, [21])]

/-- A decidable form of `Wf` for `graph`. -/
def wfb (rows : List (Nat × Bool × Nat × List Nat)) (twos : List Nat) : Bool :=
  decide (rows.map (·.1)).Nodup &&
  (rows.map (·.1)).all (fun p => decide ((graph rows).nbr p).list.Nodup &&
    ((graph rows).nbr p).list.all fun t => twos.contains t) &&
  twos.all (fun t => ((graph rows).two t).nblist.all fun p => (rows.map (·.1)).contains p) &&
  (rows.map (·.1)).all (fun p => twos.all fun t =>
    (((graph rows).nbr p).list.contains t == ((graph rows).two t).nblist.contains p))

private theorem wf_of (rows : List (Nat × Bool × Nat × List Nat)) (twos : List Nat) (c : Nat)
    (h : wfb rows twos = true) : Wf (env rows twos c) (graph rows) := by
  unfold wfb at h
  simp only [Bool.and_eq_true, decide_eq_true_eq, List.all_eq_true] at h
  obtain ⟨⟨⟨h1, h2⟩, h3⟩, h4⟩ := h
  refine ⟨h1, ?_, ?_, ?_, fun _ _ => rfl⟩
  · intro p hp
    exact ⟨(h2 p hp).1, fun t ht => List.contains_iff_mem.1 ((h2 p hp).2 t ht)⟩
  · intro t ht p hp
    exact List.contains_iff_mem.1 (h3 t ht p hp)
  · intro p hp t ht
    have := h4 p hp t ht
    rw [beq_iff_eq] at this
    rw [← List.contains_iff_mem, ← List.contains_iff_mem, this]

/-- C23 is false of the selection without link quality: in a well-formed
neighbourhood a neighbour that is not symmetric is selected. -/
theorem C23_rfc_asymmetric_selected :
    ∃ (e : Env) (s : St) (r : St × Bool) (p : Nat), Wf e s ∧ calculate e s = some r ∧
      p ∈ e.table ∧ (s.nbr p).sym = false ∧ (r.1.nbr p).isMpr = true := by
  have h : ((calculate (env rowsC [20, 21] 1) (graph rowsC)).map
      fun r => (r.1.nbr 2).isMpr) = some true := by decide +kernel
  rw [Option.map_eq_some_iff] at h
  obtain ⟨r, hr, hm⟩ := h
  exact ⟨_, _, r, 2, wf_of rowsC [20, 21] 1 (by decide), hr, by decide, by decide, hm⟩

private theorem uncovered (rows : List (Nat × Bool × Nat × List Nat)) (twos : List Nat) (t : Nat)
    (after : St) (ht : t ∈ twos)
    (hp : ∃ p ∈ ((graph rows).two t).nblist,
      ((graph rows).nbr p).sym = true ∧ ((graph rows).nbr p).will ≠ willNever)
    (hm : (((graph rows).two t).nblist.all fun q => !(after.nbr q).isMpr) = true) :
    ¬ Covers (env rows twos 1) (graph rows) after := by
  intro h
  obtain ⟨q, hq, hq2⟩ := h t ht (by intro p hp; cases hp) hp
  rw [List.all_eq_true] at hm
  have := hm q hq
  rw [hq2] at this
  cases this

/-- C24 is false: with three symmetric neighbours of default willingness and
coverage 1, both neighbours that see the two-hop neighbour 20 are selected and
then both are removed by the optimisation, which does not lower the coverage
counts. -/
theorem C24_uncovered_optimized :
    ∃ (e : Env) (s : St) (r : St × Bool), Wf e s ∧ (∀ p ∈ e.table, (s.nbr p).sym = true) ∧
      e.coverage = 1 ∧ e.table.length = 3 ∧ calculate e s = some r ∧ ¬ Covers e s r.1 := by
  have h : ((calculate (env rowsA [11, 20] 1) (graph rowsA)).map
      fun r => ((graph rowsA).two 20).nblist.all fun q => !(r.1.nbr q).isMpr) = some true := by
    decide +kernel
  rw [Option.map_eq_some_iff] at h
  obtain ⟨r, hr, hm⟩ := h
  refine ⟨_, _, r, wf_of rowsA [11, 20] 1 (by decide), by decide, rfl, rfl, hr, ?_⟩
  exact uncovered rowsA [11, 20] 20 r.1 (by decide) ⟨2, by decide, by decide, by decide⟩ hm

/-- C24 is false before the optimisation as well: the number of uncovered
two-hop neighbours is lowered once for each further relay that covers the same
two-hop neighbour, so the greedy loop gives up while 11 is not covered. -/
theorem C24_uncovered_greedy :
    ∃ (e : Env) (s s1 : St), Wf e s ∧ (∀ p ∈ e.table, (s.nbr p).sym = true) ∧
      e.coverage = 1 ∧ choose e s = some s1 ∧ ¬ Covers e s s1 := by
  have h : ((choose (env rowsB [10, 11, 21, 22, 23, 24] 1) (graph rowsB)).map
      fun r => ((graph rowsB).two 11).nblist.all fun q => !(r.nbr q).isMpr) = some true := by
    decide +kernel
  rw [Option.map_eq_some_iff] at h
  obtain ⟨s1, hr, hm⟩ := h
  refine ⟨_, _, s1, wf_of rowsB [10, 11, 21, 22, 23, 24] 1 (by decide), by decide, rfl, hr, ?_⟩
  exact uncovered rowsB _ 11 s1 (by decide) ⟨1, by decide, by decide, by decide⟩ hm

/-! ### The greedy loop ends -/

/-- Table entries that are not relays. -/
def free (e : Env) (s : St) : Nat := (e.table.filter fun p => !(s.nbr p).isMpr).length

private theorem free_chosen (e : Env) (a : St × Nat) (p : Nat) (hp : p ∈ e.table)
    (hm : (a.1.nbr p).isMpr = false) : free e (chosen e a p).1 < free e a.1 := by
  unfold free
  have h : ∀ (l : List Nat),
      (l.filter fun q => !((chosen e a p).1.nbr q).isMpr).length ≤
        (l.filter fun q => !(a.1.nbr q).isMpr).length ∧
      (p ∈ l → (l.filter fun q => !((chosen e a p).1.nbr q).isMpr).length <
        (l.filter fun q => !(a.1.nbr q).isMpr).length) := by
    intro l
    induction l with
    | nil => simp
    | cons x l ih =>
      simp only [List.filter_cons, (chosen_flags e a p).1]
      simp only [(chosen_flags e a p).1, Bool.not_or] at ih
      by_cases hx : x = p
      · subst hx
        simp [hm]
        have := ih.1
        omega
      · cases hxm : (a.1.nbr x).isMpr
        · simp [hx, Ne.symm hx]
          exact ih
        · simp [hx, Ne.symm hx]
          exact ih
  exact (h e.table).2 hp

private theorem free_le (e : Env) (s : St) : free e s ≤ e.table.length := List.length_filter_le _ _

private theorem maxLoop_enough (e : Env) (sum will : Nat) : ∀ (n m : Nat) (a : St × Nat),
    free e a.1 ≤ n → n ≤ m → maxLoop e sum will m a = maxLoop e sum will n a := by
  intro n
  induction n with
  | zero =>
    intro m a hf _
    cases hm : findMax e a.1 will with
    | none =>
      cases m with
      | zero => rfl
      | succ m => simp [maxLoop, hm]
    | some p =>
      obtain ⟨h1, h2, _⟩ := findMax_some e a.1 will p hm
      have := free_chosen e a p h1 h2
      omega
  | succ n ih =>
    intro m a hf hnm
    obtain ⟨m', rfl⟩ : ∃ m', m = m' + 1 := ⟨m - 1, by omega⟩
    unfold maxLoop
    cases hm : findMax e a.1 will with
    | none => rfl
    | some p =>
      obtain ⟨h1, h2, _⟩ := findMax_some e a.1 will p hm
      have := free_chosen e a p h1 h2
      simp only
      split
      · rfl
      · exact ih m' _ (by omega) (by omega)

/-- C24, termination: the loop that picks the neighbour with the largest count
ends within as many rounds as there are neighbours; further rounds would change
nothing. -/
theorem C24_loop_ends (e : Env) (sum will m : Nat) (a : St × Nat) (h : e.table.length ≤ m) :
    maxLoop e sum will m a = maxLoop e sum will e.table.length a :=
  maxLoop_enough e sum will e.table.length m a (free_le e a.1) h

/-! ### C51 -/

/-- C51, the half that holds of the selection without link quality: link changes
are signalled exactly when a neighbour was a relay and is none any more, where
`wasMpr` is clear before the selection.  Missing from the property: neighbours
that become a relay; see `C51_rfc_gain_not_signalled`. -/
theorem C51_rfc_loss_signalled_partial (e : Env) (s : St) (hwf : Wf e s) (r : St × Bool)
    (hclean : ∀ p ∈ e.table, (s.nbr p).wasMpr = false)
    (h : calculate e s = some r) (red : Nat) (hred : 0 < red) :
    (signals r red = true ↔
      ∃ p ∈ e.table, (s.nbr p).isMpr = true ∧ (r.1.nbr p).isMpr = false) ∧
    ∀ p ∈ e.table, (r.1.nbr p).wasMpr = false := by
  obtain ⟨b, hsel, rfl⟩ := run e s hwf.nodup hwf.back r h
  obtain ⟨_, _, st3, _⟩ := start e s
  have hwas : ∀ p ∈ e.table, ((optimize e b.1).nbr p).wasMpr = (s.nbr p).isMpr := by
    intro p hp
    have := optimize_keeps e (fun s' => (s'.nbr p).wasMpr = (b.1.nbr p).wasMpr)
      (fun w _ s' q _ hP => (optimize1_was e w s' q p).trans hP) b.1 rfl
    rw [this, hsel.was, st3 p hp, hclean p hp]
    simp
  obtain ⟨c1, c2⟩ := check_result e.table hwf.nodup (optimize e b.1, false)
  refine ⟨?_, c2⟩
  have : signals (e.table.foldl check1 (optimize e b.1, false)) red =
      (e.table.foldl check1 (optimize e b.1, false)).2 := by
    simp [signals, hred]
  rw [this, c1]
  constructor
  · rintro (h | ⟨p, hp, h1, h2⟩)
    · cases h
    · exact ⟨p, hp, by rw [← hwas p hp]; exact h1, by rw [check_isMpr]; exact h2⟩
  · rintro ⟨p, hp, h1, h2⟩
    rw [check_isMpr] at h2
    exact Or.inr ⟨p, hp, by rw [hwas p hp]; exact h1, h2⟩

/-- C51 is false of the selection without link quality: neighbour 1 becomes a
relay and nothing is signalled. -/
theorem C51_rfc_gain_not_signalled :
    ∃ (e : Env) (s : St) (r : St × Bool) (p : Nat), Wf e s ∧ calculate e s = some r ∧
      p ∈ e.table ∧ (s.nbr p).isMpr = false ∧ (r.1.nbr p).isMpr = true ∧ signals r 1 = false := by
  have h : ((calculate (env rowsA [11, 20] 1) (graph rowsA)).map
      fun r => ((r.1.nbr 1).isMpr, signals r 1)) = some (true, false) := by decide +kernel
  rw [Option.map_eq_some_iff] at h
  obtain ⟨r, hr, hm⟩ := h
  simp only [Prod.mk.injEq] at hm
  exact ⟨_, _, r, 1, wf_of rowsA [11, 20] 1 (by decide), hr, by decide, by decide, hm.1, hm.2⟩

/-! ### Examples: the hypotheses can be met -/

/-- A neighbourhood that meets the hypotheses of `C24_single_link_partial`, with
two one-link two-hop neighbours of different willingness and a shared one. -/
def rowsD : List (Nat × Bool × Nat × List Nat) :=
  [(1, true, 3, [11, 20]), (2, true, 6, [20]), (3, true, 1, [20, 13]), (4, true, 7, [])]

example : Wf (env rowsD [11, 13, 20] 1) (graph rowsD) := wf_of rowsD [11, 13, 20] 1 (by decide)

example : ((calculate (env rowsD [11, 13, 20] 1) (graph rowsD)).map
    fun r => [1, 2, 3, 4].map fun p => (r.1.nbr p).isMpr) = some [true, false, true, true] := by
  decide +kernel

example : (∀ p ∈ (env rowsD [11, 13, 20] 1).table,
    ((graph rowsD).nbr p).sym = false → ((graph rowsD).nbr p).list = []) ∧
    Strict (env rowsD [11, 13, 20] 1) (graph rowsD) 13 ∧
    ((graph rowsD).two 13).nblist = [3] := by
  exact ⟨by decide, (fun p h => by cases h), by decide⟩

/-- A relay that is lost: with 1 marked as relay and no two-hop neighbours. -/
example : ((calculate ⟨[1], [], fun _ => none, 1⟩
    ⟨fun _ => ⟨true, 3, true, false, 0, []⟩, fun _ => ⟨0, 0, false, 0, []⟩⟩).map
    fun r => ((r.1.nbr 1).isMpr, signals r 1)) = some (false, true) := by decide +kernel

end Verif.Mpr
