import Verif.RouteLemmas

/-
Best route (C27) and transfer to the kernel (C28).
-/
namespace Verif.Route

/-! ### specification -/

/-- `a` comes before `b`: lower cost, then fewer hops, then lower originator. -/
def Before (cost : Ann → Nat) (a b : Ann) : Prop :=
  cost a < cost b ∨ (cost a = cost b ∧
    (a.metric.hops < b.metric.hops ∨ (a.metric.hops = b.metric.hops ∧ a.orig < b.orig)))

/-- `a` is the announcement of `d` that comes before all others. -/
def IsBest (cost : Ann → Nat) (l : List Ann) (d : Dst) (a : Ann) : Prop :=
  a ∈ l ∧ a.dst = d ∧ ∀ b ∈ l, b.dst = d → b ≠ a → Before cost a b

/-- The cost as announced. -/
def plain (a : Ann) : Nat := a.metric.cost

/-- The cost as announced, except that one originator is favoured. -/
def favour (c : Cfg) (o : Nat) (a : Ann) : Nat :=
  if a.orig = o then c.nat a.metric.cost else a.metric.cost

/-- The route a calculation must end with: none without an announcement,
otherwise the best one; for a default route one originator may be favoured. -/
def Selected (c : Cfg) (l : List Ann) (d : Dst) : Option Ann → Prop
  | none => ∀ a ∈ l, a.dst ≠ d
  | some a => IsBest plain l d a ∨ (d.len = 0 ∧ ∃ o, IsBest (favour c o) l d a)

/-- What a calculation announces: usable costs and interfaces, prefixes of a
length that is not filtered, and one announcement per prefix and originator. -/
def Valid (c : Cfg) (l : List Ann) : Prop :=
  (∀ a ∈ l, a.metric.cost < 4294967295 ∧ a.dst.len ≤ c.maxplen ∧ 0 ≤ a.nh.iif) ∧
  (l.map fun a => (a.dst, a.orig)).Nodup

/-- The only kernel route for a destination. -/
def Only (k : Dst → Nat → Option Nh) (d : Dst) (m : Nat) (nh : Nh) : Prop :=
  ∀ m', k d m' = if m' = m then some nh else none

def NoRoute (k : Dst → Nat → Option Nh) (d : Dst) : Prop := ∀ m, k d m = none

/-- The metric the kernel route should have. -/
def wanted (c : Cfg) (a : Ann) : Nat :=
  if c.fib = .flat then c.fibDefault + c.extra a.dst else a.metric.hops + c.extra a.dst

/-- The operations so far that concern a destination. -/
def opsOf (s : St) (d : Dst) : List Op := s.log.filter fun o => decide (o.dst = d)

/-- Whether a route is deleted before it is replaced: everywhere except with
IPv4, a flat metric and no replaced route functions, where the kernel replaces
the route itself. -/
def mustDelete (c : Cfg) : Bool := !(c.v4 && decide (c.fib = .flat) && !c.custom)

/-- The transition of the kernel table for one destination and the operations
that bring it about. -/
inductive Outcome (c : Cfg) (k k' : Dst → Nat → Option Nh) (d : Dst) : Option Ann → List Op → Prop
  | absent : NoRoute k d → NoRoute k' d → Outcome c k k' d none []
  | removed (m : Nat) (nh : Nh) : Only k d m nh → NoRoute k' d → Outcome c k k' d none [.del d m nh]
  | installed (a : Ann) : NoRoute k d → Only k' d (wanted c a) a.nh →
      Outcome c k k' d (some a) [.add d (wanted c a) a.nh]
  | kept (m : Nat) (a : Ann) : Only k d m a.nh → Only k' d m a.nh →
      (c.fib ≠ .approx → m = wanted c a) → Outcome c k k' d (some a) []
  | replaced (m : Nat) (nh : Nh) (a : Ann) : Only k d m nh → (nh ≠ a.nh ∨ m ≠ wanted c a) →
      Only k' d (wanted c a) a.nh →
      Outcome c k k' d (some a)
        ((if mustDelete c then [.del d m nh] else []) ++ [.add d (wanted c a) a.nh])

/-- The states reached from the start by calculations and by forgetting paths
between them. -/
inductive Reach (c : Cfg) : St → Prop
  | start : Reach c start
  | round (s : St) (l : List Ann) : Reach c s → Valid c l → Reach c (round c s l)
  | forget (s : St) (d : Dst) (o : Nat) : Reach c s → Reach c (forget s d o)

/-! ### C27 -/

/-- The choice does not depend on the order of the paths. -/
theorem C27_order_independent (c : Cfg) (g : Option (Dst × Nat)) (d : Dst) (l l' : List Path)
    (hn : (l.map (·.orig)).Nodup) (hp : l.Perm l') : rtBest c g d l = rtBest c g d l' := by
  have hn' : (l'.map (·.orig)).Nodup := (hp.map _).nodup_iff.1 hn
  cases h : rtBest c g d l with
  | none =>
    rw [rtBest_none] at h
    rw [h] at hp
    rw [List.nil_perm.1 hp]
    rfl
  | some b =>
    cases h' : rtBest c g d l' with
    | none =>
      rw [rtBest_none] at h'
      rw [h'] at hp
      rw [List.perm_nil.1 hp] at h
      cases h
    | some b' =>
      obtain ⟨h1, h2⟩ := rtBest_spec c g d l hn b h
      obtain ⟨h3, h4⟩ := rtBest_spec c g d l' hn' b' h'
      by_cases e : b = b'
      · rw [e]
      · have h5 := h2 b' (hp.mem_iff.2 h3) (fun e' => e e'.symm)
        have h6 := h4 b (hp.mem_iff.1 h1) e
        unfold Lt at *
        omega

/-- For every destination that is not that of the current internet gateway the
path selected has the lowest cost, among those the fewest hops, and among those
the lowest originator.  Missing from C27: the current internet gateway, see
`C27_default_route_sticks`. -/
theorem C27_best_partial (c : Cfg) (g : Option (Dst × Nat)) (d : Dst) (l : List Path)
    (hn : (l.map (·.orig)).Nodup) (hg : ∀ o, g ≠ some (d, o)) (hl : l ≠ []) :
    ∃ b, rtBest c g d l = some b ∧ b ∈ l ∧ ∀ a ∈ l, a ≠ b →
      b.metric.cost < a.metric.cost ∨ (b.metric.cost = a.metric.cost ∧
        (b.metric.hops < a.metric.hops ∨ (b.metric.hops = a.metric.hops ∧ b.orig < a.orig))) := by
  cases h : rtBest c g d l with
  | none => exact absurd ((rtBest_none c g d l).1 h) hl
  | some b =>
    obtain ⟨h1, h2⟩ := rtBest_spec c g d l hn b h
    refine ⟨b, rfl, h1, fun a ha hne => ?_⟩
    have h3 := h2 a ha hne
    simp only [Lt, adjusted, if_neg (hg _)] at h3
    exact h3

/-- Two rounds with an internet threshold of one half. -/
def halfCfg : Cfg :=
  { fib := .flat, v4 := true, custom := false, fibDefault := 2, maxplen := 32, extra := fun _ => 0
    ll := fun _ => false, nat := fun x => x / 2 }

def annA : Ann := ⟨⟨0, 0⟩, 1, ⟨10, 0⟩, ⟨1500, 1⟩⟩

def annB : Ann := ⟨⟨0, 0⟩, 2, ⟨20, 0⟩, ⟨1024, 1⟩⟩

/-- C27 is false of the default route: the route depends on which gateway was
heard first, and the dearer one is kept. -/
theorem C27_default_route_sticks :
    IsBest plain [annA, annB] ⟨0, 0⟩ annB ∧
    (round halfCfg (round halfCfg start [annA]) [annA, annB]).kern ⟨0, 0⟩ 2 = some annA.nh ∧
    (round halfCfg (round halfCfg start [annB]) [annA, annB]).kern ⟨0, 0⟩ 2 = some annB.nh := by
  refine ⟨⟨by decide, rfl, ?_⟩, by decide, by decide⟩
  intro b hb _ hne
  simp only [List.mem_cons, List.not_mem_nil, or_false] at hb
  rcases hb with e | e
  · subst e
    left
    decide
  · exact absurd e hne

example : rtBest halfCfg none ⟨5, 24⟩
    [⟨3, ⟨1, 0⟩, ⟨7, 2⟩, 1⟩, ⟨4, ⟨1, 0⟩, ⟨7, 1⟩, 1⟩, ⟨2, ⟨1, 0⟩, ⟨7, 1⟩, 1⟩, ⟨1, ⟨1, 0⟩, ⟨8, 1⟩, 1⟩] =
    some ⟨2, ⟨1, 0⟩, ⟨7, 1⟩, 1⟩ := by decide

/-! ### C28 -/

private theorem announce_other (c : Cfg) (d : Dst) (l : List Ann) : ∀ s : St, (∀ a ∈ l, a.dst ≠ d) →
    (l.foldl (announce c) s).ent d = s.ent d := by
  induction l with
  | nil => exact fun s _ => rfl
  | cons a l ih =>
    intro s h
    rw [List.foldl_cons, ih _ (fun b hb => h b (List.mem_cons_of_mem _ hb))]
    have hne : d ≠ a.dst := fun e => h a List.mem_cons_self e.symm
    unfold announce
    split
    · split
      · exact setEnt_other _ _ _ _ hne
      · split
        · rfl
        · exact setEnt_other _ _ _ _ hne
    · split
      · rfl
      · exact setEnt_other _ _ _ _ hne

private theorem wanted_eq (c : Cfg) (a : Ann) : fibMetric c a.dst a.metric = wanted c a := by
  unfold fibMetric wanted
  cases c.fib <;> simp

private theorem mustDelete_iff (c : Cfg) : mustDelete c = true ↔ deletesFirst c := by
  unfold mustDelete deletesFirst
  cases c.v4 <;> cases c.custom <;> simp

/-- What a round does to one destination. -/
private theorem round_at (c : Cfg) (hll : ∀ a, c.ll a = false) (s : St) (h : Rest c s) (l : List Ann)
    (hl : Valid c l) (d : Dst) :
    ∃ best ops, Selected c l d best ∧ opsOf (round c s l) d = opsOf s d ++ ops ∧
      Outcome c s.kern (round c s l).kern d best ops ∧
      ((d ∉ (round c s l).order ∧ (round c s l).ent d = none ∧ Empty (round c s l).kern d) ∨
       (d ∈ (round c s l).order ∧ ∃ e, (round c s l).ent d = some e ∧ -1 < e.nh.iif ∧
          Holds (round c s l).kern d (fibMetric c d e.metric) e.nh ∧ (e.paths.map (·.orig)).Nodup ∧
          ∀ p ∈ e.paths, p.ver = (s.ver + 1) % 4294967296)) := by
  obtain ⟨hv, hk⟩ := hl
  obtain ⟨v, hvv⟩ : ∃ v, (s.ver + 1) % 4294967296 = v := ⟨_, rfl⟩
  have hvne : v ≠ s.ver := by
    have := h.ver
    omega
  have hok : ∀ a ∈ l, a.Ok c := fun a ha => ⟨(hv a ha).1, (hv a ha).2.1, by
    have := (hv a ha).2.2
    omega⟩
  have hi0 : Inv c { s with ver := v } :=
    ⟨h.nodup, h.mem, h.gone, h.inst, h.notyet, h.paths, h.gwlen⟩
  have hno : ∀ d p, ¬ Has { s with ver := v } d p := by
    rintro d p ⟨e, he, hp, hpv⟩
    have h1 := h.cur d e p he hp
    simp only at hpv
    exact hvne (hpv.symm.trans h1)
  obtain ⟨f, iu, hu⟩ := announce_fold c l { s with ver := v } hok hk hi0
    (fun d p a hh => absurd hh (hno d p))
  have hoth := announce_other c d l { s with ver := v }
  unfold round
  rw [hvv]
  obtain ⟨u, hue⟩ : ∃ u, l.foldl (announce c) { s with ver := v } = u := ⟨_, rfl⟩
  rw [hue] at f iu hu hoth ⊢
  have hlog : logd u d = logd s d := by unfold logd; rw [f.log]
  have huv : u.ver = v := f.ver
  have huk : u.kern = s.kern := f.kern
  cases he : u.ent d with
  | none =>
    have hs : s.ent d = none := by
      cases hs : s.ent d with
      | none => rfl
      | some e0 =>
        obtain ⟨e', h1, _⟩ := f.old d e0 hs
        rw [he] at h1
        cases h1
    have w := update_out c u iu d he
    have hek := h.gone d hs
    have hek' : Empty (update c u).kern d := fun m => by rw [w.kern, huk]; exact hek m
    refine ⟨none, [], fun a ha e => ?_, ?_, .absent hek hek', Or.inl ⟨?_, w.ent.trans he, hek'⟩⟩
    · obtain ⟨e', h1, _⟩ := (hu d (a.path v)).2 (Or.inl ⟨a, ha, e.symm, rfl⟩)
      rw [he] at h1
      cases h1
    · rw [List.append_nil]
      exact w.log.trans hlog
    · rw [w.order, iu.mem]
      rintro ⟨e, h1⟩
      rw [he] at h1
      cases h1
  | some e =>
    obtain ⟨g, hg, hnone, hsome⟩ := update_at c hll u iu d e he
    have hmem : ∀ p, p ∈ (e.paths.filter fun p => p.ver == u.ver) ↔ ∃ a ∈ l, d = a.dst ∧ p = a.path v := by
      intro p
      have h1 := hu d p
      simp only [hno, or_false] at h1
      rw [← h1]
      simp [Has, he]
    have hnd : ((e.paths.filter fun p => p.ver == u.ver).map (·.orig)).Nodup :=
      ((List.filter_sublist (l := e.paths)).map _).nodup (iu.paths d e he)
    have hpv : ∀ p ∈ (e.paths.filter fun p => p.ver == u.ver), p.ver = v := by
      intro p hp
      rw [List.mem_filter] at hp
      rw [← huv]
      simpa using hp.2
    obtain ⟨live, hlive⟩ : ∃ live, (e.paths.filter fun p => p.ver == u.ver) = live := ⟨_, rfl⟩
    rw [hlive] at hnone hsome hmem hnd hpv
    cases hb : rtBest c g d live with
    | none =>
      obtain ⟨h1, h2, h3, h4⟩ := hnone hb
      rw [rtBest_none] at hb
      have hnoann : ∀ a ∈ l, a.dst ≠ d := fun a ha e' => by
        have := (hmem (a.path v)).2 ⟨a, ha, e'.symm, rfl⟩
        rw [hb] at this
        cases this
      have hse : s.ent d = some e := (hoth hnoann).symm.trans he
      refine ⟨none, _, hnoann, ?_, .removed _ _ (h.inst d e hse (h.up d e hse)) h2, Or.inl ⟨h3, h1, h2⟩⟩
      rw [show opsOf (update c u) d = logd (update c u) d from rfl, h4, hlog]
      rfl
    | some b =>
      obtain ⟨ho, hch, hsame⟩ := hsome b hb
      obtain ⟨hbm, hbest⟩ := rtBest_spec c g d live hnd b hb
      obtain ⟨a, ha, had, hab⟩ := (hmem b).1 hbm
      have hnh : b.nh = a.nh := by rw [hab]; rfl
      have hmet : b.metric = a.metric := by rw [hab]; rfl
      have hw : fibMetric c d b.metric = wanted c a := by rw [hmet, had]; exact wanted_eq c a
      have hsel : Selected c l d (some a) := by
        have gen : ∀ cost : Ann → Nat, (∀ x : Ann, x.dst = d → cost x = adjusted c g d (x.path v)) →
            IsBest cost l d a := by
          intro cost hc
          refine ⟨ha, had.symm, fun x hx hxd hne => ?_⟩
          have h1 := hbest (x.path v) ((hmem _).2 ⟨x, hx, hxd.symm, rfl⟩) (fun e' => by
            apply hne
            have h2 : x.orig = a.orig := by
              rw [hab] at e'
              exact congrArg Path.orig e'
            exact List.inj_on_of_nodup_map hk hx ha (by rw [h2, hxd, had]))
          rw [hab] at h1
          unfold Before
          rw [hc x hxd, hc a had.symm]
          exact h1
        cases hge : g with
        | none =>
          left
          apply gen
          intro x _
          rw [hge]
          simp [plain, adjusted, Ann.path]
        | some y =>
          obtain ⟨y1, y2⟩ := y
          by_cases hy : y1 = d
          · right
            refine ⟨?_, y2, gen _ ?_⟩
            · rw [← hy]
              exact hg y1 y2 hge
            · intro x _
              rw [hge, hy]
              simp only [favour, adjusted, Ann.path, Option.some.injEq, Prod.mk.injEq, true_and]
              by_cases e' : x.orig = y2
              · rw [if_pos e', if_pos e'.symm]
              · rw [if_neg e', if_neg (fun e2 => e' e2.symm)]
          · left
            apply gen
            intro x _
            rw [hge]
            simp [plain, adjusted, Ann.path, hy]
      have hiif : -1 < b.nh.iif := by rw [hnh]; exact (hok a ha).iif
      cases hc : changed c e b with
      | true =>
        obtain ⟨h1, h2, h3⟩ := hch hc
        have hnew : (d ∉ (update c u).order ∧ (update c u).ent d = none ∧ Empty (update c u).kern d) ∨
            (d ∈ (update c u).order ∧ ∃ e, (update c u).ent d = some e ∧ -1 < e.nh.iif ∧
              Holds (update c u).kern d (fibMetric c d e.metric) e.nh ∧ (e.paths.map (·.orig)).Nodup ∧
              ∀ p ∈ e.paths, p.ver = v) :=
          Or.inr ⟨ho, _, h1, hiif, h2, hnd, hpv⟩
        rw [hw, hnh] at h2 h3
        cases hs : s.ent d with
        | none =>
          obtain ⟨h4, _⟩ := f.new d e hs he
          refine ⟨some a, _, hsel, ?_, .installed a (h.gone d hs) h2, hnew⟩
          rw [show opsOf (update c u) d = logd (update c u) d from rfl, h3, hlog, h4]
          simp [opsOf, logd]
        | some e0 =>
          obtain ⟨e1, h4, h5, h6⟩ := f.old d e0 hs
          rw [he] at h4
          injection h4 with h4
          rw [← h4] at h5 h6
          have hup := h.up d e0 hs
          refine ⟨some a, _, hsel, ?_, .replaced _ _ a (h.inst d e0 hs hup) ?_ h2, hnew⟩
          · rw [show opsOf (update c u) d = logd (update c u) d from rfl, h3, hlog, h5, h6]
            by_cases hdf : deletesFirst c
            · rw [if_pos ⟨hdf, hup⟩, if_pos ((mustDelete_iff c).2 hdf)]
              rfl
            · rw [if_neg (fun h' => hdf h'.1), if_neg (fun h' => hdf ((mustDelete_iff c).1 h'))]
              rfl
          · unfold changed at hc
            simp only [Bool.or_eq_true, decide_eq_true_eq, Bool.and_eq_true] at hc
            rcases hc with hc | ⟨hc1, hc2⟩
            · left
              rw [← h5, ← hnh]
              exact fun e' => hc e'.symm
            · right
              rw [← hw, ← h6]
              unfold fibMetric
              rw [hc1]
              simp only
              omega
      | false =>
        obtain ⟨h1, h2, h3⟩ := hsame hc
        unfold changed at hc
        simp only [Bool.or_eq_false_iff, decide_eq_false_iff_not, Decidable.not_not, Bool.and_eq_false_iff] at hc
        obtain ⟨hc1, hc2⟩ := hc
        cases hs : s.ent d with
        | none =>
          obtain ⟨h4, _⟩ := f.new d e hs he
          rw [hc1, h4] at hiif
          simp at hiif
        | some e0 =>
          obtain ⟨e1, h4, h5, h6⟩ := f.old d e0 hs
          rw [he] at h4
          injection h4 with h4
          rw [← h4] at h5 h6
          have hup := h.up d e0 hs
          have hin := h.inst d e0 hs hup
          have hout : Holds (update c u).kern d (fibMetric c d e.metric) e.nh := by
            rw [h5, h6]
            intro m
            rw [h2, huk]
            exact hin m
          rw [← h5, ← h6] at hin
          refine ⟨some a, [], hsel, ?_, .kept (fibMetric c d e.metric) a ?_ ?_ ?_,
            Or.inr ⟨ho, _, h1, by rw [← hc1]; exact hiif, hout, hnd, hpv⟩⟩
          · rw [List.append_nil]
            exact h3.trans hlog
          · rw [← hnh, hc1]
            exact hin
          · rw [← hnh, hc1]
            exact hout
          · intro hna
            rw [← hw]
            unfold fibMetric
            cases hf : c.fib with
            | flat => rfl
            | approx => exact absurd hf hna
            | correct =>
              rcases hc2 with h7 | h7
              · exact absurd hf h7
              · simp only
                omega

private theorem round_rest (c : Cfg) (hll : ∀ a, c.ll a = false) (s : St) (h : Rest c s) (l : List Ann)
    (hl : Valid c l) : Rest c (round c s l) := by
  have hat := round_at c hll s h l hl
  have hvlt : (s.ver + 1) % 4294967296 < 4294967296 := Nat.mod_lt _ (by decide)
  have hok : ∀ a ∈ l, a.Ok c := fun a ha => ⟨(hl.1 a ha).1, (hl.1 a ha).2.1, by
    have := (hl.1 a ha).2.2
    omega⟩
  have hglob : (round c s l).order.Nodup ∧ (round c s l).ver = (s.ver + 1) % 4294967296 ∧
      GwLen (round c s l).inetgw := by
    have hi0 : Inv c { s with ver := (s.ver + 1) % 4294967296 } :=
      ⟨h.nodup, h.mem, h.gone, h.inst, h.notyet, h.paths, h.gwlen⟩
    obtain ⟨f, iu, _⟩ := announce_fold c l { s with ver := (s.ver + 1) % 4294967296 } hok hl.2 hi0
      (fun d p a hh => by
        obtain ⟨e, he, hp, hpv⟩ := hh
        have h1 := h.cur d e p he hp
        have h2 := h.ver
        simp only at hpv
        omega)
    obtain ⟨h1, h2, h3⟩ := update_global c _ iu
    exact ⟨h1, h2.trans f.ver, h3⟩
  obtain ⟨t, ht⟩ : ∃ t, round c s l = t := ⟨_, rfl⟩
  rw [ht] at hglob hat ⊢
  obtain ⟨g1, g2, g3⟩ := hglob
  have hat' : ∀ d, (d ∉ t.order ∧ t.ent d = none ∧ Empty t.kern d) ∨
       (d ∈ t.order ∧ ∃ e, t.ent d = some e ∧ -1 < e.nh.iif ∧
          Holds t.kern d (fibMetric c d e.metric) e.nh ∧ (e.paths.map (·.orig)).Nodup ∧
          ∀ p ∈ e.paths, p.ver = (s.ver + 1) % 4294967296) := by
    intro d
    obtain ⟨_, _, _, _, _, h1⟩ := hat d
    exact h1
  have hsome : ∀ d e, t.ent d = some e → d ∈ t.order ∧ -1 < e.nh.iif ∧
      Holds t.kern d (fibMetric c d e.metric) e.nh ∧ (e.paths.map (·.orig)).Nodup ∧
      ∀ p ∈ e.paths, p.ver = (s.ver + 1) % 4294967296 := by
    intro d e he
    rcases hat' d with ⟨_, h1, _⟩ | ⟨h1, e', h2, h3⟩
    · rw [he] at h1
      cases h1
    · rw [he] at h2
      injection h2 with h2
      rw [h2]
      exact ⟨h1, h3⟩
  refine ⟨⟨g1, fun d => ?_, fun d hd => ?_, fun d e he _ => (hsome d e he).2.2.1,
    fun d e he hi => absurd (hsome d e he).2.1 hi, fun d e he => (hsome d e he).2.2.2.1, g3⟩,
    fun d e he => (hsome d e he).2.1, fun d e p he hp => ?_, ?_⟩
  · constructor
    · intro hd
      rcases hat' d with ⟨h1, _⟩ | ⟨_, e, h2, _⟩
      · exact absurd hd h1
      · exact ⟨e, h2⟩
    · rintro ⟨e, he⟩
      exact (hsome d e he).1
  · rcases hat' d with ⟨_, _, h1⟩ | ⟨_, e, h2, _⟩
    · exact h1
    · rw [hd] at h2
      cases h2
  · rw [g2]
    exact (hsome d e he).2.2.2.2 p hp
  · rw [g2]
    exact hvlt

private theorem forget_rest (c : Cfg) (s : St) (h : Rest c s) (d : Dst) (o : Nat) : Rest c (forget s d o) := by
  have hgw : GwLen (forget s d o).inetgw := by
    unfold forget
    simp only
    split
    · intro x y e
      cases e
    · exact h.gwlen
  have hent : ∀ x e, (forget s d o).ent x = some e →
      ∃ e0, s.ent x = some e0 ∧ e.nh = e0.nh ∧ e.metric = e0.metric ∧ e.paths.Sublist e0.paths := by
    intro x e
    unfold forget
    cases he1 : s.ent d with
    | some e1 =>
      intro hx
      by_cases hxd : x = d
      · rw [hxd] at hx
        simp only [setEnt_same] at hx
        injection hx with hx
        rw [hxd, ← hx]
        exact ⟨e1, he1, rfl, rfl, List.filter_sublist⟩
      · simp only [setEnt_other _ _ _ _ hxd] at hx
        exact ⟨e, hx, rfl, rfl, List.Sublist.refl _⟩
    | none => exact fun hx => ⟨e, hx, rfl, rfl, List.Sublist.refl _⟩
  have hnone : ∀ x, (forget s d o).ent x = none ↔ s.ent x = none := by
    intro x
    unfold forget
    cases he1 : s.ent d with
    | some e1 =>
      by_cases hxd : x = d
      · rw [hxd, he1]
        simp [setEnt_same]
      · simp only [setEnt_other _ _ _ _ hxd]
    | none => exact Iff.rfl
  refine ⟨⟨h.nodup, fun x => ?_, fun x hx => h.gone x ((hnone x).1 hx), fun x e he hi => ?_,
    fun x e he hi => ?_, fun x e he => ?_, hgw⟩, fun x e he => ?_, fun x e p he hp => ?_, h.ver⟩
  · show x ∈ s.order ↔ _
    rw [h.mem, ← Option.isSome_iff_exists, ← Option.isSome_iff_exists, ← Option.ne_none_iff_isSome,
      ← Option.ne_none_iff_isSome, ne_eq, ne_eq, hnone]
  · obtain ⟨e0, h1, h2, h3, _⟩ := hent x e he
    rw [h2] at hi ⊢
    rw [h3]
    exact h.inst x e0 h1 hi
  · obtain ⟨e0, h1, h2, h3, _⟩ := hent x e he
    rw [h2] at hi
    exact h.notyet x e0 h1 hi
  · obtain ⟨e0, h1, _, _, h4⟩ := hent x e he
    exact (h4.map _).nodup (h.paths x e0 h1)
  · obtain ⟨e0, h1, h2, _⟩ := hent x e he
    rw [h2]
    exact h.up x e0 h1
  · obtain ⟨e0, h1, _, _, h4⟩ := hent x e he
    exact h.cur x e0 p h1 (h4.subset hp)

private theorem start_rest (c : Cfg) : Rest c start := by
  refine ⟨⟨List.nodup_nil, fun d => ?_, fun d _ m => rfl, ?_, ?_, ?_, ?_⟩, ?_, ?_, by decide⟩
  · simp [start]
  all_goals intro d e; simp [start]

private theorem reach_rest (c : Cfg) (hll : ∀ a, c.ll a = false) (s : St) (h : Reach c s) : Rest c s := by
  induction h with
  | start => exact start_rest c
  | round s l _ hl ih => exact round_rest c hll s ih l hl
  | forget s d o _ ih => exact forget_rest c s ih d o

/-- After every sequence of calculations and removals, a calculation brings the
kernel table of every destination to the selected route: nothing is done if the
right route is there, a missing route is added once, a different one replaced by
one deletion (where the kernel does not replace routes itself) and one addition,
and a route without announcement deleted once.  Missing from C28: link-local
destinations, see `C28_linklocal_stale`; failing kernel calls; the metric with
`FIBMetric "approx"`, see `C28_approx_stale_metric`. -/
theorem C28_sync_partial (c : Cfg) (hll : ∀ a, c.ll a = false) (s : St) (h : Reach c s) (l : List Ann)
    (hl : Valid c l) (d : Dst) :
    ∃ best ops, Selected c l d best ∧ opsOf (round c s l) d = opsOf s d ++ ops ∧
      Outcome c s.kern (round c s l).kern d best ops := by
  obtain ⟨best, ops, h1, h2, h3, _⟩ := round_at c hll s (reach_rest c hll s h) l hl d
  exact ⟨best, ops, h1, h2, h3⟩

/-- The order in which a calculation announces the routes does not matter: for
a destination that is not a default route the kernel gets the same next hop. -/
theorem C27_announcement_order (c : Cfg) (hll : ∀ a, c.ll a = false) (s s' : St) (h : Reach c s)
    (h' : Reach c s') (l l' : List Ann) (hl : Valid c l) (hp : l.Perm l') (d : Dst) (hd : d.len ≠ 0) :
    (NoRoute (round c s l).kern d ∧ NoRoute (round c s' l').kern d) ∨
    ∃ m m' nh, Only (round c s l).kern d m nh ∧ Only (round c s' l').kern d m' nh ∧
      (c.fib ≠ .approx → m = m') := by
  have hl' : Valid c l' := ⟨fun a ha => hl.1 a (hp.mem_iff.2 ha), (hp.map _).nodup_iff.1 hl.2⟩
  obtain ⟨b, ops, h1, _, h3⟩ := C28_sync_partial c hll s h l hl d
  obtain ⟨b', ops', h1', _, h3'⟩ := C28_sync_partial c hll s' h' l' hl' d
  have key : ∀ (k k' : Dst → Nat → Option Nh) a ops, Outcome c k k' d (some a) ops →
      ∃ m, Only k' d m a.nh ∧ (c.fib ≠ .approx → m = wanted c a) := by
    intro k k' a ops ho
    cases ho with
    | installed _ _ h2 => exact ⟨_, h2, fun _ => rfl⟩
    | kept m _ _ h2 h3 => exact ⟨m, h2, h3⟩
    | replaced _ _ _ _ _ h2 => exact ⟨_, h2, fun _ => rfl⟩
  have knone : ∀ (k k' : Dst → Nat → Option Nh) ops, Outcome c k k' d none ops → NoRoute k' d := by
    intro k k' ops ho
    cases ho with
    | absent _ h2 => exact h2
    | removed _ _ _ h2 => exact h2
  cases b with
  | none =>
    cases b' with
    | none => exact Or.inl ⟨knone _ _ _ h3, knone _ _ _ h3'⟩
    | some a' =>
      rcases h1' with h2 | ⟨h2, _⟩
      · exact absurd h2.2.1 (h1 a' (hp.mem_iff.2 h2.1))
      · exact absurd h2 hd
  | some a =>
    cases b' with
    | none =>
      rcases h1 with h2 | ⟨h2, _⟩
      · exact absurd h2.2.1 (h1' a (hp.mem_iff.1 h2.1))
      · exact absurd h2 hd
    | some a' =>
      rcases h1 with h2 | ⟨h2, _⟩
      · rcases h1' with h4 | ⟨h4, _⟩
        · have e : a = a' := by
            apply Classical.byContradiction
            intro hne
            have h5 := h2.2.2 a' (hp.mem_iff.2 h4.1) h4.2.1 (fun e => hne e.symm)
            have h6 := h4.2.2 a (hp.mem_iff.1 h2.1) h2.2.1 hne
            unfold Before at *
            omega
          obtain ⟨m, k1, k2⟩ := key _ _ _ _ h3
          obtain ⟨m', k3, k4⟩ := key _ _ _ _ h3'
          rw [← e] at k3 k4
          exact Or.inr ⟨m, m', a.nh, k1, k3, fun hf => (k2 hf).trans (k4 hf).symm⟩
        · exact absurd h4 hd
      · exact absurd h2 hd

/-- A link-local destination that is no longer one hop away keeps its old route
in the kernel although its best route is another one (IPv4, flat metric). -/
theorem C28_linklocal_stale :
    let c : Cfg := { halfCfg with ll := fun a => decide (a / 65536 = 43518) }
    let d : Dst := ⟨43518 * 65536 + 257, 32⟩
    let one : Ann := ⟨d, d.addr, ⟨d.addr, 3⟩, ⟨1024, 1⟩⟩
    let two : Ann := ⟨d, d.addr, ⟨7, 4⟩, ⟨2048, 2⟩⟩
    Reach c (round c start [one]) ∧ Valid c [two] ∧
    (round c (round c start [one]) [two]).kern d 2 = some one.nh ∧ one.nh ≠ two.nh := by
  refine ⟨Reach.round _ _ Reach.start ⟨?_, by simp⟩, ⟨?_, by simp⟩, by decide, by decide⟩
  · intro a ha
    rw [List.mem_singleton] at ha
    rw [ha]
    decide
  · intro a ha
    rw [List.mem_singleton] at ha
    rw [ha]
    decide

/-- With `FIBMetric "approx"` the metric of an unchanged next hop is not
updated, and the kernel route is not the computed one. -/
theorem C28_approx_stale_metric :
    let c : Cfg := { halfCfg with fib := .approx }
    let d : Dst := ⟨9, 32⟩
    let one : Ann := ⟨d, 9, ⟨7, 0⟩, ⟨3072, 3⟩⟩
    let two : Ann := ⟨d, 9, ⟨7, 0⟩, ⟨2048, 2⟩⟩
    Reach c (round c start [one]) ∧ Valid c [two] ∧
    (round c (round c start [one]) [two]).kern d 3 = some two.nh ∧
    (round c (round c start [one]) [two]).kern d (wanted c two) = none := by
  refine ⟨Reach.round _ _ Reach.start ⟨?_, by simp⟩, ⟨?_, by simp⟩, by decide, by decide⟩
  · intro a ha
    rw [List.mem_singleton] at ha
    rw [ha]
    decide
  · intro a ha
    rw [List.mem_singleton] at ha
    rw [ha]
    decide

/-- Three rounds: two routes added, one replaced and one deleted. -/
def exCfg : Cfg := { halfCfg with fib := .correct }

def exA : Ann := ⟨⟨9, 32⟩, 9, ⟨7, 0⟩, ⟨3072, 3⟩⟩
def exA' : Ann := ⟨⟨9, 32⟩, 9, ⟨7, 0⟩, ⟨2048, 2⟩⟩
def exB : Ann := ⟨⟨8, 32⟩, 8, ⟨8, 0⟩, ⟨1024, 1⟩⟩

example : Valid exCfg [exA, exB] := by
  refine ⟨fun a ha => ?_, by decide⟩
  simp only [List.mem_cons, List.not_mem_nil, or_false] at ha
  rcases ha with e | e <;> rw [e] <;> decide

example : (round exCfg (round exCfg start [exA, exB]) [exA']).log =
    [.add ⟨8, 32⟩ 1 ⟨8, 0⟩, .add ⟨9, 32⟩ 3 ⟨7, 0⟩, .del ⟨8, 32⟩ 1 ⟨8, 0⟩, .del ⟨9, 32⟩ 3 ⟨7, 0⟩,
      .add ⟨9, 32⟩ 2 ⟨7, 0⟩] := by decide

example : ∃ s, Reach exCfg s ∧ s.kern ⟨9, 32⟩ 3 = some ⟨7, 0⟩ ∧ (∀ a, exCfg.ll a = false) :=
  ⟨round exCfg start [exA], Reach.round _ _ Reach.start ⟨fun a ha => by
    rw [List.mem_singleton] at ha
    rw [ha]
    decide, by simp⟩, by decide, fun _ => rfl⟩

end Verif.Route
