import Verif.EgressModel
/-
C55: the egress link of a multi-smart-gateway is the cheapest usable one.
C56: the routing table of the egress link.
-/
namespace Verif.Egress

/-! ### Specification -/

/-- Traffic can leave over this link. -/
def Usable (l : Link) : Prop := l.up = true ∧ l.osUp = true ∧ l.cost < int64Max

/-- The costs are those of the current state: a link that is down has infinite
costs (every change recalculates them, C33). -/
def Fresh (links : List Link) : Prop :=
  ∀ l, l ∈ links → l.cost ≤ int64Max ∧ (l.up = false → l.cost = int64Max)

/-- Cheapest usable link, the first one declared among equals. -/
def BestOf (links : List Link) (b : Link) : Prop :=
  Usable b ∧ ∃ pre post, links = pre ++ b :: post ∧
    (∀ x, x ∈ pre → Usable x → b.cost < x.cost) ∧ (∀ x, x ∈ post → Usable x → b.cost ≤ x.cost)

/-! ### C55 -/

private theorem fold_inv (l : List Link) : ∀ (f : Link) (pre mid : List Link),
    (∀ x, x ∈ pre → Usable x → f.cost < x.cost) → (∀ x, x ∈ mid → Usable x → f.cost ≤ x.cost) →
    ∃ pre' post', pre ++ f :: mid ++ l = pre' ++ (l.foldl better f) :: post' ∧
      (∀ x, x ∈ pre' → Usable x → (l.foldl better f).cost < x.cost) ∧
      (∀ x, x ∈ post' → Usable x → (l.foldl better f).cost ≤ x.cost) := by
  induction l with
  | nil =>
    intro f pre mid h1 h2
    exact ⟨pre, mid, by simp, h1, h2⟩
  | cons y l ih =>
    intro f pre mid h1 h2
    rw [List.foldl_cons]
    by_cases hc : y.up = true ∧ y.cost < f.cost ∧ y.osUp = true
    · have hb : better f y = y := if_pos hc
      rw [hb]
      obtain ⟨pre', post', e, k1, k2⟩ := ih y (pre ++ f :: mid) [] (by
        intro x hx hu
        rcases List.mem_append.1 hx with hx | hx
        · have := h1 x hx hu
          omega
        · rcases List.mem_cons.1 hx with ex | hx
          · rw [ex]; omega
          · have := h2 x hx hu
            omega) (by intro x hx; cases hx)
      exact ⟨pre', post', by rw [← e]; simp, k1, k2⟩
    · have hb : better f y = f := if_neg hc
      rw [hb]
      obtain ⟨pre', post', e, k1, k2⟩ := ih f pre (mid ++ [y]) h1 (by
        intro x hx hu
        rcases List.mem_append.1 hx with hx | hx
        · exact h2 x hx hu
        · have ex := List.mem_singleton.1 hx
          rw [ex] at hu ⊢
          have : ¬ y.cost < f.cost := fun hlt => hc ⟨hu.1, hlt, hu.2.1⟩
          omega)
      exact ⟨pre', post', by rw [← e]; simp, k1, k2⟩

private theorem fold_osUp (l : List Link) : ∀ f : Link, (f.up = true → f.osUp = true) →
    (l.foldl better f).up = true → (l.foldl better f).osUp = true := by
  induction l with
  | nil => intro f h; exact h
  | cons y l ih =>
    intro f h
    rw [List.foldl_cons]
    apply ih
    by_cases hc : y.up = true ∧ y.cost < f.cost ∧ y.osUp = true
    · have hb : better f y = y := if_pos hc
      rw [hb]; exact fun _ => hc.2.2
    · have hb : better f y = f := if_neg hc
      rw [hb]; exact h

/-- C55 (partial): the link chosen is the cheapest usable one, the first declared
among equals, and none is chosen only if none is usable; provided that the first
link declared, if it is marked up, is up for the operating system.  Missing: that
is not checked for the first link, see `C55_first_link_unchecked`. -/
theorem C55_best_partial (f : Link) (l : List Link) (hfresh : Fresh (f :: l))
    (hf : f.up = true → f.osUp = true) :
    (∀ b, determine (f :: l) = some b → BestOf (f :: l) b) ∧
      (determine (f :: l) = none → ∀ x, x ∈ f :: l → ¬ Usable x) := by
  obtain ⟨pre, post, e, k1, k2⟩ := fold_inv l f [] [] (by intro x hx; cases hx) (by intro x hx; cases hx)
  simp only [List.nil_append, List.cons_append] at e
  have hos := fold_osUp l f hf
  have hmem : l.foldl better f ∈ f :: l := by rw [e]; simp
  have hfr := hfresh _ hmem
  have hall : ∀ x, x ∈ f :: l → Usable x → (l.foldl better f).cost ≤ x.cost := by
    intro x hx hu
    rw [e] at hx
    rcases List.mem_append.1 hx with hx | hx
    · exact Nat.le_of_lt (k1 x hx hu)
    · rcases List.mem_cons.1 hx with ex | hx
      · rw [ex]; exact Nat.le_refl _
      · exact k2 x hx hu
  unfold determine
  simp only
  by_cases hc : (l.foldl better f).up = false ∨ (l.foldl better f).cost = int64Max
  · rw [if_pos hc]
    refine ⟨fun b h => (by cases h), ?_⟩
    intro _ x hx hu
    have hge := hall x hx hu
    have hlt := hu.2.2
    rcases hc with hc | hc
    · rw [hfr.2 hc] at hge; omega
    · omega
  · rw [if_neg hc]
    refine ⟨?_, fun h => (by cases h)⟩
    intro b hb
    cases hb
    have hup : (l.foldl better f).up = true := by
      cases hh : (l.foldl better f).up with
      | true => rfl
      | false => exact absurd (Or.inl hh) hc
    have hne : (l.foldl better f).cost ≠ int64Max := fun h => hc (Or.inr h)
    refine ⟨⟨hup, hos hup, by have := hfr.1; omega⟩, pre, post, e, k1, k2⟩

/-- C55 is false of the code: whether the interface is up is only checked for the
links after the first; here the first one is down and chosen, although the second
is usable. -/
theorem C55_first_link_unchecked :
    ∃ f g : Link, Fresh [f, g] ∧ f.osUp = false ∧ Usable g ∧ determine [f, g] = some f := by
  refine ⟨⟨0, 3, true, 5, none, false⟩, ⟨1, 4, true, 9, none, true⟩, ?_, rfl, ?_, by decide⟩
  · intro l hl
    rcases List.mem_cons.1 hl with e | hl
    · rw [e]; exact ⟨by decide, fun h => by cases h⟩
    · rw [List.mem_singleton.1 hl]; exact ⟨by decide, fun h => by cases h⟩
  · exact ⟨rfl, rfl, by decide⟩

/-- Three links, the second is down, the third and fourth cost the same. -/
example : determine [⟨0, 3, true, 9, none, true⟩, ⟨1, 4, false, int64Max, none, false⟩,
    ⟨2, 5, true, 7, none, true⟩, ⟨3, 6, true, 7, none, true⟩] = some ⟨2, 5, true, 7, none, true⟩ := by decide

example : Fresh [⟨0, 3, true, 9, none, true⟩, ⟨1, 4, false, int64Max, none, false⟩] := by
  intro l hl
  rcases List.mem_cons.1 hl with e | hl
  · rw [e]; exact ⟨by decide, fun h => by cases h⟩
  · rw [List.mem_singleton.1 hl]; exact ⟨by decide, fun _ => rfl⟩

/-! ### C56 -/

/-- What the operating system and the flags do: a link that is chosen has an
interface that is up, and a chosen link without a changed flag is as it was when
it was chosen. -/
def Orderly (s : St) (e : Event) : Prop :=
  ∀ b, determine e.links = some b → isUp e.os b.idx = true ∧
    (∀ p, s.best = some p → p.id = b.id → e.dirty = false → p = b)

/-- Every event of a run is orderly. -/
def OrderlyRun (first : Event) (l : List Event) : Prop :=
  Orderly init first ∧ ∀ pre e post, l = pre ++ e :: post → Orderly (run first pre) e

/-- The table that is wanted: a default route over the chosen link, and without
one a blackhole, so that traffic that came out of a tunnel is not sent back into
one. -/
def Wanted (s : St) : Prop :=
  match s.best with
  | some b => s.kern = some (.via b.idx b.gw)
  | none => s.kern = some .blackhole

private theorem isUp_pos (os : Nat → Bool) (i : Nat) (h : isUp os i = true) : i ≠ 0 := by
  intro e
  rw [e] at h
  cases h

private def Installed (s : St) : Prop :=
  (∀ b, s.best = some b → s.route = some (.via b.idx b.gw) ∧ s.kern = some (.via b.idx b.gw)) ∧
    (s.best = none → ∀ i g, s.route ≠ some (.via i g))

private theorem flush_via (os : Nat → Bool) (i : Nat) (g : Option Nat) (h : isUp os i = true) :
    flush os (some (.via i g)) = some (.via i g) := by
  unfold flush
  simp only [h]
  rfl

private theorem program_add (os : Nat → Bool) (i : Nat) (g : Option Nat) (k : Option Route)
    (h : isUp os i = true) : program os true (some (.via i g)) k = some (.via i g) := by
  unfold program
  simp only [ifOf, h]
  rfl

private theorem step_best (st : Bool) (s : St) (e : Event) : (step st s e).best = determine e.links := by
  unfold step configure
  simp only
  split
  · split <;> rfl
  · rfl

private theorem step_some (st : Bool) (s : St) (e : Event) (h : Installed s) (ho : Orderly s e)
    (b : Link) (hb : determine e.links = some b) :
    (step st s e).route = some (.via b.idx b.gw) ∧ (step st s e).kern = some (.via b.idx b.gw) := by
  obtain ⟨hup, hsame⟩ := ho b hb
  have hpos := isUp_pos _ _ hup
  have hr : routeOf (some b) = .via b.idx b.gw := if_neg hpos
  unfold step
  simp only [hb]
  split
  · unfold configure
    simp only
    rw [if_neg (by intro hc; cases hc.2.1)]
    rw [hr]
    refine ⟨rfl, ?_⟩
    show (if decide (s.route ≠ some (.via b.idx b.gw)) = true ∨ st = true then _ else _) = _
    by_cases hc : decide (s.route ≠ some (.via b.idx b.gw)) = true ∨ st = true
    · rw [if_pos hc, program_add _ _ _ _ hup]
    · rw [if_neg hc]
      have hroute : s.route = some (.via b.idx b.gw) := by
        by_cases hh : s.route = some (.via b.idx b.gw)
        · exact hh
        · exact absurd (Or.inl (decide_eq_true hh)) hc
      rw [if_neg (fun hh => hc (Or.inl hh.1))]
      cases hp : s.best with
      | none => exact absurd hroute (h.2 hp _ _)
      | some p =>
        obtain ⟨h1, h2⟩ := h.1 p hp
        show flush e.os s.kern = _
        rw [h2, ← h1, hroute, flush_via _ _ _ hup]
  · rename_i hc
    have hid : s.best.map (·.id) = some b.id := by
      by_cases hh : s.best.map (·.id) = some b.id
      · exact hh
      · exact absurd (Or.inl hh) hc
    have hd : e.dirty = false := by
      cases hh : e.dirty with
      | false => rfl
      | true => exact absurd (Or.inr (Or.inl ⟨rfl, hh⟩)) hc
    cases hp : s.best with
    | none => rw [hp] at hid; cases hid
    | some p =>
      rw [hp] at hid
      have hpb : p = b := hsame p hp (Option.some.inj hid) hd
      obtain ⟨h1, h2⟩ := h.1 p hp
      rw [hpb] at h1 h2
      refine ⟨h1, ?_⟩
      show flush e.os s.kern = _
      rw [h2, flush_via _ _ _ hup]

private theorem step_installed (st : Bool) (s : St) (e : Event) (h : Installed s) (ho : Orderly s e) :
    Installed (step st s e) := by
  refine ⟨?_, ?_⟩
  · intro b hb
    rw [step_best] at hb
    exact step_some st s e h ho b hb
  · intro hb
    rw [step_best] at hb
    unfold step
    simp only [hb]
    split
    · unfold configure
      simp only
      split
      · rename_i hc
        exact h.2 hc.1
      · intro i g hh
        cases hh
    · rename_i hc
      apply h.2
      cases hp : s.best with
      | none => rfl
      | some p =>
        rw [hp] at hc
        exact absurd (Or.inl (by intro hh; cases hh)) hc

private theorem init_installed : Installed init :=
  ⟨fun b h => (by cases h), fun _ i g h => (by cases h)⟩

private theorem run_snoc (first : Event) (l : List Event) (e : Event) :
    run first (l ++ [e]) = step false (run first l) e := by
  unfold run
  rw [List.foldl_append]
  rfl

private theorem run_installed (first : Event) (n : Nat) : ∀ (l : List Event), l.length = n →
    OrderlyRun first l → Installed (run first l) := by
  induction n with
  | zero =>
    intro l hl h
    rw [List.length_eq_zero_iff.1 hl]
    exact step_installed true init first init_installed h.1
  | succ n ih =>
    intro l hl h
    have hne : l ≠ [] := by
      intro e
      rw [e] at hl
      cases hl
    obtain ⟨m, hm⟩ : ∃ m, l = m ++ [l.getLast hne] := ⟨l.dropLast, (List.dropLast_concat_getLast hne).symm⟩
    obtain ⟨e, he⟩ : ∃ e, l.getLast hne = e := ⟨_, rfl⟩
    rw [he] at hm
    rw [hm, run_snoc]
    apply step_installed
    · apply ih
      · rw [hm] at hl
        simp at hl
        exact hl
      · refine ⟨h.1, ?_⟩
        intro pre x post hx
        exact h.2 pre x (post ++ [e]) (by rw [hm, hx]; simp)
    · exact h.2 m e [] hm

/-- C56 (partial): whenever there is an egress link in use, the table has the
default route over its interface and gateway.  Missing: the case without a link,
see `C56_never_blackhole`; failing kernel requests. -/
theorem C56_link_route_partial (first : Event) (l : List Event) (h : OrderlyRun first l) (b : Link)
    (hb : (run first l).best = some b) : (run first l).kern = some (.via b.idx b.gw) :=
  ((run_installed first l.length l rfl h).1 b hb).2

private theorem program_not_blackhole (os : Nat → Bool) (add : Bool) (r k : Option Route)
    (hk : k ≠ some .blackhole) : program os add r k ≠ some .blackhole := by
  unfold program
  cases r with
  | none => exact hk
  | some r =>
    simp only
    split
    · exact hk
    · rename_i hu
      split
      · intro h
        cases h
        exact hu rfl
      · split
        · intro h; cases h
        · exact hk

private theorem step_not_blackhole (st : Bool) (s : St) (e : Event) (hk : s.kern ≠ some .blackhole) :
    (step st s e).kern ≠ some .blackhole := by
  have hf : flush e.os s.kern ≠ some .blackhole := by
    unfold flush
    split
    · split
      · intro h; cases h
      · intro h; cases h
    · exact hk
  unfold step
  simp only
  split
  · unfold configure
    simp only
    split
    · exact hf
    · show (if _ then program _ _ _ (if _ then _ else _) else (if _ then _ else _)) ≠ some Route.blackhole
      have h1 : (if decide (s.route ≠ some (routeOf (determine e.links))) = true ∧ st = false then
          program e.os false s.route (flush e.os s.kern) else flush e.os s.kern) ≠ some Route.blackhole := by
        split
        · exact program_not_blackhole _ _ _ _ hf
        · exact hf
      split
      · exact program_not_blackhole _ _ _ _ h1
      · exact h1
  · exact hf

/-- C56 is false of the code: `programRoute` ignores routes whose interface is
not up, and the blackhole route has none; it is never installed, whatever
happens. -/
theorem C56_never_blackhole (first : Event) (l : List Event) : (run first l).kern ≠ some .blackhole := by
  unfold run
  have h0 : (step true init first).kern ≠ some .blackhole :=
    step_not_blackhole true init first (by intro h; cases h)
  revert h0
  generalize step true init first = s
  intro h0
  induction l generalizing s with
  | nil => exact h0
  | cons e l ih => exact ih _ (step_not_blackhole false s e h0)

/-- So the wanted table is missing whenever there is no egress link. -/
theorem C56_unwanted (first : Event) (l : List Event) (h : (run first l).best = none) :
    ¬ Wanted (run first l) := by
  intro hw
  unfold Wanted at hw
  rw [h] at hw
  exact C56_never_blackhole first l hw

private def up34 : Nat → Bool := fun i => i == 3 || i == 4
private def linkA : Link := ⟨0, 3, true, 9, some 77, true⟩
private def linkB : Link := ⟨1, 4, true, 5, none, true⟩
private def downB : Link := ⟨1, 4, false, int64Max, none, false⟩

/-- A run: the cheaper link goes down, then the other one too. -/
example : run ⟨[linkA, linkB], up34, false⟩ [⟨[linkA, downB], fun i => i == 3, false⟩] =
    ⟨some linkA, some (.via 3 (some 77)), some (.via 3 (some 77))⟩ := by decide

example : OrderlyRun ⟨[linkA, linkB], up34, false⟩ [] := by
  refine ⟨?_, ?_⟩
  · intro b hb
    have e : determine [linkA, linkB] = some linkB := by decide
    have hb : determine [linkA, linkB] = some b := hb
    rw [e] at hb
    cases hb
    exact ⟨by decide, fun p hp => by cases hp⟩
  · intro pre e post h
    simp at h

end Verif.Egress
