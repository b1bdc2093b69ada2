import Verif.EgRouteModel
/-
C127: the routing table of an egress interface.
-/
namespace Verif.EgRoute

/-! ### Specification -/

/-- What is known about the interface from the messages and the file; `lost` says that the
kernel has removed the routes and no message about the interface has come since. -/
structure View where
  idx : Nat
  up : Bool
  par : Par
  lost : Bool

/-- The table is to hold this route. -/
def Wanted (v : View) (r : Route) : Prop :=
  v.up = true ∧
    ((v.par.rn = true ∧ ∃ d, v.par.net = some d ∧ r = ⟨d, v.idx, none, true⟩) ∨
     ((v.par.rg = true → v.par.gw ≠ none) ∧ r = ⟨(0, 0), v.idx, v.par.gw, false⟩))

/-- What an event tells. -/
def see (v : View) : Ev → View
  | .file p => { v with par := p }
  | .add i => { v with idx := i, up := true, lost := if v.up = true then v.lost else false }
  | .remove i => if i = v.idx then { v with up := false, lost := false } else v
  | .flush i => if i = v.idx ∧ v.up = true then { v with lost := true } else v

def seeAll (v : View) (l : List (Os × Ev)) : View := l.foldl (fun v e => see v e.2) v

/-- The operating system does as it is told and the messages are about its present state:
the kernel accepts routes; whenever a message or the file makes a change of routes
necessary, the interface is up with a carrier, or the kernel has removed all routes over
it; no network is the whole address space. -/
def Fair (os : Os) (v : View) (kern : List Route) : Ev → Prop
  | .file p => (∀ r, os.accepts r = true) ∧ p.net ≠ some (0, 0) ∧
      (v.up = true → os.isUp v.idx = true ∨ (v.lost = true ∧ kern = []))
  | .add i => (∀ r, os.accepts r = true) ∧ i ≠ 0 ∧ os.isUp i = true ∧ (v.up = true → i = v.idx)
  | .remove i => os.isUp i = true ∨ ∀ r ∈ kern, r.idx ≠ i
  | .flush _ => True

/-- Every event of the sequence is fair when it comes. -/
def FairRun (s : St) (v : View) (l : List (Os × Ev)) : Prop :=
  ∀ pre e post, l = pre ++ e :: post → Fair e.1 (seeAll v pre) (run s pre).kern e.2

/-- The same for startup. -/
def FairStart (os : Os) (idx : Nat) (up : Bool) (p : Par) : Prop :=
  p.net ≠ some (0, 0) ∧ (up = true → idx ≠ 0 ∧ os.isUp idx = true ∧ ∀ r, os.accepts r = true)

/-! ### One route -/

private def Usable (os : Os) (o : Option Route) : Prop := ∀ r, o = some r → r.idx ≠ 0 ∧ os.isUp r.idx = true

private theorem program_add (os : Os) (ha : ∀ r, os.accepts r = true) (o : Option Route) (k : List Route) :
    (program os true o k).1 = o := by
  cases o with
  | none => rfl
  | some r =>
    simp only [program]
    split
    · rfl
    · rw [if_neg (by decide), if_pos (ha r)]

private theorem mem_add (os : Os) (ha : ∀ r, os.accepts r = true) (o : Option Route) (hu : Usable os o) (k : List Route) (x : Route) :
    x ∈ (program os true o k).2 ↔ o = some x ∨ (x ∈ k ∧ ∀ r, o = some r → x.dst ≠ r.dst) := by
  cases o with
  | none => simp [program]
  | some r =>
    obtain ⟨h1, h2⟩ := hu r rfl
    simp only [program]
    rw [if_neg (by rw [h2]; simp [h1]), if_neg (by decide), if_pos (ha r)]
    simp only [List.mem_cons, List.mem_filter, decide_eq_true_eq, Option.some.injEq]
    constructor
    · rintro (h | ⟨h, hd⟩)
      · exact Or.inl h.symm
      · exact Or.inr ⟨h, by intro r' e; rw [← e]; exact hd⟩
    · rintro (h | ⟨h, hd⟩)
      · exact Or.inl h.symm
      · exact Or.inr ⟨h, hd r rfl⟩

private theorem mem_del (os : Os) (o : Option Route) (hu : Usable os o) (k : List Route) (x : Route) :
    x ∈ (program os false o k).2 ↔ x ∈ k ∧ o ≠ some x := by
  cases o with
  | none => simp [program]
  | some r =>
    obtain ⟨h1, h2⟩ := hu r rfl
    simp only [program]
    rw [if_neg (by rw [h2]; simp [h1]), if_pos trivial]
    simp only [List.mem_filter, decide_eq_true_eq, ne_eq, Option.some.injEq]
    constructor
    · rintro ⟨h, hd⟩; exact ⟨h, fun e => hd e.symm⟩
    · rintro ⟨h, hd⟩; exact ⟨h, fun e => hd e.symm⟩

private theorem change_eq (os : Os) (old new : Option Route) (k : List Route) :
    change .runtime os old new k =
      if old ≠ new then program os true new (program os false old k).2 else (new, k) := by
  unfold change
  by_cases h : old = new
  · have h1 : ¬ ((old ≠ new ∨ delForced .runtime = true) ∧ delAllowed .runtime = true) := by
      simp [h, delForced]
    have h2 : ¬ ((old ≠ new ∨ addForced .runtime = true) ∧ addAllowed .runtime = true) := by
      simp [h, addForced]
    simp only []
    rw [if_neg h2, if_neg h1, if_neg (by simp [h])]
  · simp only []
    rw [if_pos (show (old ≠ new ∨ addForced .runtime = true) ∧ addAllowed .runtime = true from ⟨Or.inl h, rfl⟩),
      if_pos (show (old ≠ new ∨ delForced .runtime = true) ∧ delAllowed .runtime = true from ⟨Or.inl h, rfl⟩), if_pos h]

private theorem change_fst (os : Os) (ha : ∀ r, os.accepts r = true) (old new : Option Route) (k : List Route) :
    (change .runtime os old new k).1 = new := by
  rw [change_eq]
  split
  · exact program_add os ha new _
  · rfl

private theorem change_fst_none (os : Os) (old : Option Route) (k : List Route) :
    (change .runtime os old none k).1 = none := by
  rw [change_eq]
  split <;> rfl

private theorem change_mem (os : Os) (ha : ∀ r, os.accepts r = true) (old new : Option Route) (k : List Route)
    (ho : Usable os old) (hn : Usable os new) (x : Route) :
    x ∈ (change .runtime os old new k).2 ↔
      (old = new ∧ x ∈ k) ∨
      (old ≠ new ∧ (new = some x ∨ (x ∈ k ∧ old ≠ some x ∧ ∀ r, new = some r → x.dst ≠ r.dst))) := by
  rw [change_eq]
  by_cases h : old = new
  · rw [if_neg (by simp [h])]; simp [h]
  · rw [if_pos h, mem_add os ha new hn, mem_del os old ho]
    simp [h, and_assoc]

private theorem change_none_mem (os : Os) (old : Option Route) (k : List Route) (ho : Usable os old) (x : Route) :
    x ∈ (change .runtime os old none k).2 ↔ x ∈ k ∧ old ≠ some x := by
  rw [change_eq]
  by_cases h : old = none
  · rw [if_neg (by simp [h])]; simp [h]
  · rw [if_pos h]
    exact mem_del os old ho k x

private theorem program_nil (os : Os) (o : Option Route) : (program os false o []).2 = [] := by
  cases o with
  | none => rfl
  | some r =>
    simp only [program]
    split <;> rfl

private theorem change_none_nil (os : Os) (old : Option Route) : (change .runtime os old none []).2 = [] := by
  rw [change_eq]
  split
  · rw [program_nil]; rfl
  · rfl

private theorem program_skip (os : Os) (a : Bool) (o : Option Route) (k : List Route)
    (h : ∀ r, o = some r → r.idx = 0 ∨ os.isUp r.idx = false) : (program os a o k).2 = k := by
  cases o with
  | none => rfl
  | some r => simp only [program]; rw [if_pos (h r rfl)]

private theorem change_nil (os : Os) (new : Option Route) (old : Option Route) (x : Route)
    (h : x ∈ (change .runtime os old new []).2) : new = some x := by
  rw [change_eq] at h
  split at h
  · rw [program_nil] at h
    cases new with
    | none => cases h
    | some r =>
      simp only [program] at h
      split at h
      · cases h
      · rw [if_neg (by decide)] at h
        split at h
        · simp only [List.filter_nil, List.mem_singleton] at h; rw [h]
        · cases h
  · cases h

/-! ### Both routes -/

/-- The new table when both routes are changed. -/
private def both (os : Os) (s : St) : St :=
  let a := change .runtime os s.nr (netRoute s.up s.idx s.par) s.kern
  let b := change .runtime os s.dr (defRoute s.up s.idx s.par) a.2
  { s with nr := a.1, dr := b.1, kern := b.2 }

private theorem change_same (os : Os) (o : Option Route) (k : List Route) : change .runtime os o o k = (o, k) := by
  rw [change_eq, if_neg (by simp)]

private theorem configNet_runtime (os : Os) (ch : Bool) (s : St)
    (h : ch = false → s.nr = netRoute s.up s.idx s.par) :
    configNet .runtime os ch s =
      { s with nr := (change .runtime os s.nr (netRoute s.up s.idx s.par) s.kern).1
               kern := (change .runtime os s.nr (netRoute s.up s.idx s.par) s.kern).2 } := by
  unfold configNet
  by_cases hc : ch = true
  · rw [if_pos (Or.inl hc)]
  · have hf : ch = false := by simpa using hc
    rw [if_neg (by rw [hf]; simp [forced]), ← h hf, change_same]

private theorem configDef_runtime (os : Os) (ch : Bool) (s : St)
    (h : ch = false → s.dr = defRoute s.up s.idx s.par) :
    configDef .runtime os ch s =
      { s with dr := (change .runtime os s.dr (defRoute s.up s.idx s.par) s.kern).1
               kern := (change .runtime os s.dr (defRoute s.up s.idx s.par) s.kern).2 } := by
  unfold configDef
  by_cases hc : ch = true
  · rw [if_pos (Or.inl hc)]
  · have hf : ch = false := by simpa using hc
    rw [if_neg (by rw [hf]; simp [forced]), ← h hf, change_same]

private theorem configure_runtime (os : Os) (u n g : Bool) (s : St)
    (hn : (u || n) = false → s.nr = netRoute s.up s.idx s.par)
    (hg : (u || g) = false → s.dr = defRoute s.up s.idx s.par) :
    configure .runtime os u n g s = both os s := by
  unfold configure
  rw [configNet_runtime os _ s hn, configDef_runtime os _ _ (by exact hg)]
  rfl

private theorem net_of (up : Bool) (idx : Nat) (p : Par) (x : Route) :
    netRoute up idx p = some x ↔ up = true ∧ p.rn = true ∧ ∃ d, p.net = some d ∧ x = ⟨d, idx, none, true⟩ := by
  unfold netRoute
  by_cases h : p.rn = false ∨ up = false
  · rw [if_pos h]
    constructor
    · intro h'; cases h'
    · rintro ⟨h1, h2, _⟩
      rcases h with h | h
      · rw [h] at h2; cases h2
      · rw [h] at h1; cases h1
  · rw [if_neg h]
    have h1 : up = true := by
      cases hu : up with
      | true => rfl
      | false => exact absurd (Or.inr hu) h
    have h2 : p.rn = true := by
      cases hu : p.rn with
      | true => rfl
      | false => exact absurd (Or.inl hu) h
    simp only [h1, h2, true_and]
    cases p.net with
    | none => simp
    | some d =>
      simp only [Option.map_some, Option.some.injEq]
      constructor
      · intro h; exact ⟨d, rfl, h.symm⟩
      · rintro ⟨d', e, h⟩; rw [e]; exact h.symm

private theorem def_of (up : Bool) (idx : Nat) (p : Par) (x : Route) :
    defRoute up idx p = some x ↔ up = true ∧ (p.rg = true → p.gw ≠ none) ∧ x = ⟨(0, 0), idx, p.gw, false⟩ := by
  unfold defRoute
  by_cases h : (p.rg = true ∧ p.gw = none) ∨ up = false
  · rw [if_pos h]
    constructor
    · intro h'; cases h'
    · rintro ⟨h1, h2, _⟩
      rcases h with h | h
      · exact absurd h.2 (h2 h.1)
      · rw [h] at h1; cases h1
  · rw [if_neg h]
    have h1 : up = true := by
      cases hu : up with
      | true => rfl
      | false => exact absurd (Or.inr hu) h
    simp only [h1, true_and, Option.some.injEq]
    constructor
    · intro e; exact ⟨fun a b => h (Or.inl ⟨a, b⟩), e.symm⟩
    · rintro ⟨_, e⟩; exact e.symm

private theorem net_down (idx : Nat) (p : Par) : netRoute false idx p = none := if_pos (Or.inr rfl)
private theorem def_down (idx : Nat) (p : Par) : defRoute false idx p = none := if_pos (Or.inr rfl)

private structure Inv (v : View) (s : St) : Prop where
  idx : s.idx = v.idx
  up : s.up = v.up
  par : s.par = v.par
  nr : s.nr = netRoute v.up v.idx v.par
  dr : s.dr = defRoute v.up v.idx v.par
  sound : ∀ r ∈ s.kern, s.nr = some r ∨ s.dr = some r
  compl : v.lost = false → ∀ r, (s.nr = some r ∨ s.dr = some r) → r ∈ s.kern
  pos : v.up = true → v.idx ≠ 0
  net0 : v.par.net ≠ some (0, 0)

private theorem usable_net (os : Os) (up : Bool) (i : Nat) (p : Par) (h : up = true → i ≠ 0 ∧ os.isUp i = true) :
    Usable os (netRoute up i p) := by
  intro r hr
  obtain ⟨h1, _, d, _, e⟩ := (net_of _ _ _ _).1 hr
  rw [e]; exact h h1

private theorem usable_def (os : Os) (up : Bool) (i : Nat) (p : Par) (h : up = true → i ≠ 0 ∧ os.isUp i = true) :
    Usable os (defRoute up i p) := by
  intro r hr
  obtain ⟨h1, _, e⟩ := (def_of _ _ _ _).1 hr
  rw [e]; exact h h1

private theorem dst_ne (up : Bool) (i : Nat) (p : Par) (up' : Bool) (i' : Nat) (p' : Par) (h0 : p.net ≠ some (0, 0)) (a b : Route)
    (ha : netRoute up i p = some a) (hb : defRoute up' i' p' = some b) : a.dst ≠ b.dst := by
  obtain ⟨_, _, d, hd, e⟩ := (net_of _ _ _ _).1 ha
  obtain ⟨_, _, e'⟩ := (def_of _ _ _ _).1 hb
  rw [e, e']
  intro h
  exact h0 (by rw [hd]; exact congrArg some h)

/-- All changes while the operating system follows. -/
private theorem both_up (os : Os) (ha : ∀ r, os.accepts r = true) (s : St) (o : Par) (oup : Bool) (oidx : Nat)
    (hnr : s.nr = netRoute oup oidx o) (hdr : s.dr = defRoute oup oidx o)
    (hon : o.net ≠ some (0, 0)) (hnn : s.par.net ≠ some (0, 0))
    (ho : oup = true → oidx ≠ 0 ∧ os.isUp oidx = true) (hn : s.up = true → s.idx ≠ 0 ∧ os.isUp s.idx = true)
    (hs : ∀ r ∈ s.kern, s.nr = some r ∨ s.dr = some r) :
    (∀ r ∈ (both os s).kern, netRoute s.up s.idx s.par = some r ∨ defRoute s.up s.idx s.par = some r) ∧
    ((∀ r, (s.nr = some r ∨ s.dr = some r) → r ∈ s.kern) →
      ∀ r, (netRoute s.up s.idx s.par = some r ∨ defRoute s.up s.idx s.par = some r) → r ∈ (both os s).kern) := by
  have u1 : Usable os s.nr := by rw [hnr]; exact usable_net os _ _ _ ho
  have u2 : Usable os s.dr := by rw [hdr]; exact usable_def os _ _ _ ho
  have u3 := usable_net os _ _ s.par hn
  have u4 := usable_def os _ _ s.par hn
  have hmem : ∀ x, x ∈ (both os s).kern ↔ x ∈ (change .runtime os s.dr (defRoute s.up s.idx s.par)
      (change .runtime os s.nr (netRoute s.up s.idx s.par) s.kern).2).2 := fun x => Iff.rfl
  have dne : ∀ a b, netRoute s.up s.idx s.par = some a → defRoute s.up s.idx s.par = some b → a.dst ≠ b.dst :=
    dst_ne _ _ _ _ _ _ hnn
  have dne' : ∀ a b, netRoute s.up s.idx s.par = some a → s.dr = some b → a.dst ≠ b.dst := by
    intro a b h1 h2; rw [hdr] at h2; exact dst_ne _ _ _ _ _ _ hnn a b h1 h2
  constructor
  · intro r hr
    rw [hmem, change_mem os ha _ _ _ u2 u4, change_mem os ha _ _ _ u1 u3] at hr
    rcases hr with ⟨hd, hr⟩ | ⟨_, hr | ⟨hr, hne, _⟩⟩
    · rcases hr with ⟨hn', hr⟩ | ⟨_, hr | ⟨hr, hne, _⟩⟩
      · rw [← hn', ← hd]; exact hs r hr
      · exact Or.inl hr
      · rcases hs r hr with h | h
        · exact absurd h hne
        · rw [← hd]; exact Or.inr h
    · exact Or.inr hr
    · rcases hr with ⟨hn', hr⟩ | ⟨_, hr | ⟨hr, hne', _⟩⟩
      · rcases hs r hr with h | h
        · rw [← hn']; exact Or.inl h
        · exact absurd h hne
      · exact Or.inl hr
      · rcases hs r hr with h | h
        · exact absurd h hne'
        · exact absurd h hne
  · intro hc r hr
    rw [hmem, change_mem os ha _ _ _ u2 u4, change_mem os ha _ _ _ u1 u3]
    have hk : ∀ x, netRoute s.up s.idx s.par = some x →
        (s.nr = netRoute s.up s.idx s.par ∧ x ∈ s.kern) ∨
        (s.nr ≠ netRoute s.up s.idx s.par ∧ (netRoute s.up s.idx s.par = some x ∨
          (x ∈ s.kern ∧ s.nr ≠ some x ∧ ∀ r, netRoute s.up s.idx s.par = some r → x.dst ≠ r.dst))) := by
      intro x hx
      by_cases hn' : s.nr = netRoute s.up s.idx s.par
      · exact Or.inl ⟨hn', hc x (Or.inl (by rw [hn']; exact hx))⟩
      · exact Or.inr ⟨hn', Or.inl hx⟩
    rcases hr with hr | hr
    · by_cases hd : s.dr = defRoute s.up s.idx s.par
      · exact Or.inl ⟨hd, hk r hr⟩
      · refine Or.inr ⟨hd, Or.inr ⟨hk r hr, ?_, fun b hb => dne r b hr hb⟩⟩
        intro h
        exact dne' r r hr h rfl
    · by_cases hd : s.dr = defRoute s.up s.idx s.par
      · refine Or.inl ⟨hd, ?_⟩
        have hkern : r ∈ s.kern := hc r (Or.inr (by rw [hd]; exact hr))
        by_cases hn' : s.nr = netRoute s.up s.idx s.par
        · exact Or.inl ⟨hn', hkern⟩
        · refine Or.inr ⟨hn', Or.inr ⟨hkern, ?_, fun b hb => (dne b r hb hr).symm⟩⟩
          intro h
          rw [hnr] at h
          have h2 : defRoute oup oidx o = some r := by rw [← hdr, hd]; exact hr
          exact dst_ne _ _ _ _ _ _ hon r r h h2 rfl
      · exact Or.inr ⟨hd, Or.inl hr⟩

private theorem both_fields (os : Os) (ha : ∀ r, os.accepts r = true) (s : St) :
    (both os s).idx = s.idx ∧ (both os s).up = s.up ∧ (both os s).par = s.par ∧
      (both os s).nr = netRoute s.up s.idx s.par ∧ (both os s).dr = defRoute s.up s.idx s.par :=
  ⟨rfl, rfl, rfl, change_fst os ha _ _ _, change_fst os ha _ _ _⟩

private theorem inv_file (os : Os) (v : View) (s : St) (p : Par) (h : Inv v s) (hf : Fair os v s.kern (.file p)) :
    Inv (see v (.file p)) (step os s (.file p)) := by
  obtain ⟨ha, hp0, hup⟩ := hf
  have he : step os s (.file p) = both os { s with par := p } := by
    show configure .runtime os false _ _ _ = _
    apply configure_runtime
    · intro hn
      have hn : netChanged s.par p = false := by simpa using hn
      unfold netChanged at hn
      have hn := of_decide_eq_false hn
      have h1 : s.par.rn = p.rn := Decidable.byContradiction fun e => hn (Or.inl e)
      have h2 : s.par.net = p.net := Decidable.byContradiction fun e => hn (Or.inr e)
      show s.nr = netRoute s.up s.idx p
      rw [h.nr, h.up, h.idx, ← h.par]
      unfold netRoute
      rw [h1, h2]
    · intro hn
      have hn : gwChanged s.par p = false := by simpa using hn
      unfold gwChanged at hn
      have hn := of_decide_eq_false hn
      have h1 : s.par.rg = p.rg := Decidable.byContradiction fun e => hn (Or.inl e)
      have h2 : s.par.gw = p.gw := Decidable.byContradiction fun e => hn (Or.inr e)
      show s.dr = defRoute s.up s.idx p
      rw [h.dr, h.up, h.idx, ← h.par]
      unfold defRoute
      rw [h1, h2]
  rw [he]
  obtain ⟨f1, f2, f3, f4, f5⟩ := both_fields os ha { s with par := p }
  have f4 : (both os { s with par := p }).nr = netRoute v.up v.idx p := by rw [f4, ← h.up, ← h.idx]
  have f5 : (both os { s with par := p }).dr = defRoute v.up v.idx p := by rw [f5, ← h.up, ← h.idx]
  refine ⟨by rw [f1]; exact h.idx, by rw [f2]; exact h.up, f3, f4, f5, ?_, ?_, h.pos, hp0⟩
  · intro r hr
    rw [f4, f5]
    by_cases hu : v.up = true
    · rcases hup hu with ho | ⟨_, hk⟩
      · have := (both_up os ha { s with par := p } v.par v.up v.idx h.nr h.dr h.net0 hp0
          (fun hu => ⟨h.pos hu, ho⟩) (fun hu => by
            show s.idx ≠ 0 ∧ os.isUp s.idx = true
            rw [h.idx]; exact ⟨h.pos (by rw [← h.up]; exact hu), ho⟩) h.sound).1 r hr
        simp only [h.up, h.idx] at this
        exact this
      · have hr' : r ∈ (change .runtime os s.dr (defRoute s.up s.idx p)
            (change .runtime os s.nr (netRoute s.up s.idx p) s.kern).2).2 := hr
        rw [hk, change_eq] at hr'
        rw [h.up, h.idx] at hr'
        have hA : ∀ x, x ∈ (change .runtime os s.nr (netRoute v.up v.idx p) []).2 → netRoute v.up v.idx p = some x :=
          fun x hx => change_nil os _ _ x hx
        split at hr'
        · cases hD : defRoute v.up v.idx p with
          | none =>
            rw [hD] at hr'
            have hr' : r ∈ (program os false s.dr (change .runtime os s.nr (netRoute v.up v.idx p) []).2).2 := hr'
            refine Or.inl (hA r ?_)
            cases hdd : s.dr with
            | none => rw [hdd] at hr'; exact hr'
            | some q =>
              rw [hdd] at hr'
              simp only [program] at hr'
              split at hr'
              · exact hr'
              · rw [if_pos trivial] at hr'; exact (List.mem_filter.1 hr').1
          | some q =>
            rw [hD] at hr'
            have hdel : ∀ x, x ∈ (program os false s.dr (change .runtime os s.nr (netRoute v.up v.idx p) []).2).2 →
                netRoute v.up v.idx p = some x := by
              intro x hx
              apply hA
              cases hdd : s.dr with
              | none => rw [hdd] at hx; exact hx
              | some q =>
                rw [hdd] at hx
                simp only [program] at hx
                split at hx
                · exact hx
                · rw [if_pos trivial] at hx; exact (List.mem_filter.1 hx).1
            simp only [program] at hr'
            split at hr'
            · exact Or.inl (hdel r hr')
            · rw [if_neg (by decide), if_pos (ha q)] at hr'
              rcases List.mem_cons.1 hr' with e | hr'
              · exact Or.inr (by rw [e])
              · exact Or.inl (hdel r (List.mem_filter.1 hr').1)
        · exact Or.inl (hA r hr')
    · have hu : v.up = false := by simpa using hu
      exfalso
      have hk : s.kern = [] := by
        cases hk : s.kern with
        | nil => rfl
        | cons a l =>
          have := h.sound a (by rw [hk]; exact List.mem_cons_self)
          rw [h.nr, h.dr, hu, net_down, def_down] at this
          rcases this with e | e <;> cases e
      have hr' : r ∈ (change .runtime os s.dr (defRoute s.up s.idx p)
            (change .runtime os s.nr (netRoute s.up s.idx p) s.kern).2).2 := hr
      rw [hk, h.up, hu, net_down, def_down, change_none_nil, change_none_nil] at hr'
      cases hr'
  · intro hl r hr
    rw [f4, f5] at hr
    have hu : v.up = true := by
      rcases hr with hr | hr
      · exact ((net_of _ _ _ _).1 hr).1
      · exact ((def_of _ _ _ _).1 hr).1
    have ho : os.isUp v.idx = true := by
      rcases hup hu with ho | ⟨hl', _⟩
      · exact ho
      · have hl : v.lost = false := hl
        rw [hl] at hl'; cases hl'
    refine (both_up os ha { s with par := p } v.par v.up v.idx h.nr h.dr h.net0 hp0
          (fun hu => ⟨h.pos hu, ho⟩) (fun hu => by
            show s.idx ≠ 0 ∧ os.isUp s.idx = true
            rw [h.idx]; exact ⟨h.pos (by rw [← h.up]; exact hu), ho⟩) h.sound).2 (h.compl hl) r ?_
    simp only [h.up, h.idx]
    exact hr

private theorem kern_nil (v : View) (s : St) (h : Inv v s) (hu : v.up = false) : s.kern = [] := by
  cases hk : s.kern with
  | nil => rfl
  | cons a l =>
    have := h.sound a (by rw [hk]; exact List.mem_cons_self)
    rw [h.nr, h.dr, hu, net_down, def_down] at this
    rcases this with e | e <;> cases e

private theorem inv_add (os : Os) (v : View) (s : St) (i : Nat) (h : Inv v s) (hf : Fair os v s.kern (.add i)) :
    Inv (see v (.add i)) (step os s (.add i)) := by
  obtain ⟨ha, hi, ho, hsame⟩ := hf
  by_cases hu : v.up = true
  · have e1 : step os s (.add i) = { s with idx := i } := if_pos (by rw [h.up]; exact hu)
    have e2 : see v (.add i) = v := by
      simp only [see, if_pos hu]
      rw [hsame hu]
      cases v; simp only at hu; simp only [hu]
    have e3 : ({ s with idx := i } : St) = s := by
      have := hsame hu
      rw [this, ← h.idx]
    rw [e1, e2, e3]; exact h
  · have hu' : v.up = false := by simpa using hu
    have e1 : step os s (.add i) = both os { s with idx := i, up := true } := by
      show (if s.up = true then _ else _) = _
      rw [if_neg (by rw [h.up]; exact hu)]
      apply configure_runtime <;> (intro h; cases h)
    have hk := kern_nil v s h hu'
    rw [e1]
    obtain ⟨f1, f2, f3, f4, f5⟩ := both_fields os ha { s with idx := i, up := true }
    have f4 : (both os { s with idx := i, up := true }).nr = netRoute true i v.par := by rw [f4, ← h.par]
    have f5 : (both os { s with idx := i, up := true }).dr = defRoute true i v.par := by rw [f5, ← h.par]
    have hb := both_up os ha { s with idx := i, up := true } v.par false v.idx
      (by show s.nr = _; rw [h.nr, hu']) (by show s.dr = _; rw [h.dr, hu']) h.net0
      (by show s.par.net ≠ _; rw [h.par]; exact h.net0) (fun h => by cases h) (fun _ => ⟨hi, ho⟩) h.sound
    refine ⟨f1, f2, by rw [f3]; exact h.par, f4, f5, ?_, ?_, fun _ => hi, h.net0⟩
    · intro r hr
      rw [f4, f5]
      have := hb.1 r hr
      simp only [h.par] at this
      exact this
    · intro _ r hr
      rw [f4, f5] at hr
      refine hb.2 ?_ r (by simp only [h.par]; exact hr)
      intro q hq
      have hq : s.nr = some q ∨ s.dr = some q := hq
      rw [h.nr, h.dr, hu', net_down, def_down] at hq
      rcases hq with e | e <;> cases e

private theorem inv_remove (os : Os) (v : View) (s : St) (i : Nat) (h : Inv v s) (hf : Fair os v s.kern (.remove i)) :
    Inv (see v (.remove i)) (step os s (.remove i)) := by
  by_cases hi : i = v.idx
  · have e2 : see v (.remove i) = { v with up := false, lost := false } := if_pos hi
    rw [e2]
    by_cases hu : v.up = true
    · have e1 : step os s (.remove i) = both os { s with up := false } := by
        show (if _ then _ else _) = _
        rw [if_neg (by
          rw [h.up, hu, h.idx]
          rintro (h' | h' | h')
          · exact h' hi
          · exact h.pos hu (by rw [← hi]; exact h')
          · cases h')]
        apply configure_runtime <;> (intro h; cases h)
      have hk : (both os { s with up := false }).kern = [] := by
        have hd : (both os { s with up := false }).kern =
            (change .runtime os s.dr none (change .runtime os s.nr none s.kern).2).2 := by
          show (change .runtime os s.dr (defRoute false s.idx s.par) (change .runtime os s.nr (netRoute false s.idx s.par) s.kern).2).2 = _
          rw [net_down, def_down]
        rw [hd]
        rcases hf with ho | ho
        · have hpos : ∀ b : Bool, b = true → v.idx ≠ 0 ∧ os.isUp v.idx = true := fun _ _ => ⟨h.pos hu, by rw [← hi]; exact ho⟩
          have u1 : Usable os s.nr := by rw [h.nr]; exact usable_net os _ _ _ (hpos _)
          have u2 : Usable os s.dr := by rw [h.dr]; exact usable_def os _ _ _ (hpos _)
          rw [List.eq_nil_iff_forall_not_mem]
          intro x hx
          rw [change_none_mem os _ _ u2, change_none_mem os _ _ u1] at hx
          rcases h.sound x hx.1.1 with e | e
          · exact hx.1.2 e
          · exact hx.2 e
        · have hk : s.kern = [] := by
            rw [List.eq_nil_iff_forall_not_mem]
            intro x hx
            apply ho x hx
            rcases h.sound x hx with e | e
            · rw [h.nr] at e
              obtain ⟨_, _, d, _, e⟩ := (net_of _ _ _ _).1 e
              rw [e]; exact hi.symm
            · rw [h.dr] at e
              obtain ⟨_, _, e⟩ := (def_of _ _ _ _).1 e
              rw [e]; exact hi.symm
          rw [hk, change_none_nil, change_none_nil]
      rw [e1]
      have hn : (both os { s with up := false }).nr = none := by
        show (change .runtime os s.nr (netRoute false s.idx s.par) s.kern).1 = none
        rw [net_down]; exact change_fst_none os _ _
      have hd : (both os { s with up := false }).dr = none := by
        show (change .runtime os s.dr (defRoute false s.idx s.par) _).1 = none
        rw [def_down]; exact change_fst_none os _ _
      refine ⟨h.idx, rfl, h.par, by rw [hn, net_down], by rw [hd, def_down], ?_, ?_, fun h => (by cases h), h.net0⟩
      · intro r hr; rw [hk] at hr; cases hr
      · intro _ r hr
        rw [hn, hd] at hr
        rcases hr with e | e <;> cases e
    · have hu' : v.up = false := by simpa using hu
      have e1 : step os s (.remove i) = s := if_pos (Or.inr (Or.inr (by rw [h.up]; exact hu')))
      rw [e1]
      refine ⟨h.idx, by rw [h.up]; exact hu', h.par, by rw [h.nr, hu'], by rw [h.dr, hu'], h.sound, ?_, fun h => (by cases h), h.net0⟩
      intro _ r hr
      rw [h.nr, h.dr, hu', net_down, def_down] at hr
      rcases hr with e | e <;> cases e
  · have e2 : see v (.remove i) = v := if_neg hi
    have e1 : step os s (.remove i) = s := if_pos (Or.inl (by rw [h.idx]; exact hi))
    rw [e1, e2]; exact h

private theorem inv_flush (os : Os) (v : View) (s : St) (i : Nat) (h : Inv v s) :
    Inv (see v (.flush i)) (step os s (.flush i)) := by
  have hs : ∀ r ∈ (step os s (.flush i)).kern, s.nr = some r ∨ s.dr = some r := by
    intro r hr
    exact h.sound r (List.mem_filter.1 hr).1
  by_cases hc : i = v.idx ∧ v.up = true
  · have e2 : see v (.flush i) = { v with lost := true } := if_pos hc
    rw [e2]
    exact ⟨h.idx, h.up, h.par, h.nr, h.dr, hs, fun h => (by cases h), h.pos, h.net0⟩
  · have e2 : see v (.flush i) = v := if_neg hc
    rw [e2]
    refine ⟨h.idx, h.up, h.par, h.nr, h.dr, hs, ?_, h.pos, h.net0⟩
    intro hl r hr
    have hr : s.nr = some r ∨ s.dr = some r := hr
    refine List.mem_filter.2 ⟨h.compl hl r hr, decide_eq_true ?_⟩
    rw [h.nr, h.dr] at hr
    intro e
    apply hc
    rcases hr with hr | hr
    · obtain ⟨hu, _, d, _, er⟩ := (net_of _ _ _ _).1 hr
      rw [er] at e
      exact ⟨e.symm, hu⟩
    · obtain ⟨hu, _, er⟩ := (def_of _ _ _ _).1 hr
      rw [er] at e
      exact ⟨e.symm, hu⟩

private theorem inv_step (os : Os) (v : View) (s : St) (e : Ev) (h : Inv v s) (hf : Fair os v s.kern e) :
    Inv (see v e) (step os s e) := by
  cases e with
  | file p => exact inv_file os v s p h hf
  | add i => exact inv_add os v s i h hf
  | remove i => exact inv_remove os v s i h hf
  | flush i => exact inv_flush os v s i h

private theorem inv_run : ∀ (l : List (Os × Ev)) (v : View) (s : St), Inv v s → FairRun s v l →
    Inv (seeAll v l) (run s l)
  | [], _, _, h, _ => h
  | e :: l, v, s, h, hf => by
    have h1 := inv_step e.1 v s e.2 h (hf [] e l rfl)
    exact inv_run l (see v e.2) (step e.1 s e.2) h1 (fun pre x post hl => hf (e :: pre) x post (by rw [hl]; rfl))

private theorem inv_start (os : Os) (idx : Nat) (up : Bool) (p : Par) (h : FairStart os idx up p) :
    Inv ⟨idx, up, p, false⟩ (start os idx up p) := by
  obtain ⟨h0, hu⟩ := h
  have hc : ∀ new k, change .startup os none new k = program os true new k := by
    intro new k
    have h1 : ¬ ((none ≠ new ∨ delForced .startup = true) ∧ delAllowed .startup = true) := by
      simp [delAllowed]
    unfold change
    simp only []
    rw [if_neg h1, if_pos ⟨Or.inr rfl, rfl⟩]
  have e : start os idx up p =
      ⟨idx, up, p, (program os true (netRoute up idx p) []).1,
        (program os true (defRoute up idx p) (program os true (netRoute up idx p) []).2).1,
        (program os true (defRoute up idx p) (program os true (netRoute up idx p) []).2).2⟩ := by
    unfold start configure configDef configNet
    simp only [show forced .startup = true from rfl, or_true, if_true, hc]
  rw [e]
  by_cases hup : up = true
  · obtain ⟨hi, ho, ha⟩ := hu hup
    have u1 := usable_net os up idx p (fun _ => ⟨hi, ho⟩)
    have u2 := usable_def os up idx p (fun _ => ⟨hi, ho⟩)
    refine ⟨rfl, rfl, rfl, program_add os ha _ _, program_add os ha _ _, ?_, ?_, fun _ => hi, h0⟩
    · intro r hr
      simp only at hr
      show _ = _ ∨ _ = _
      rw [program_add os ha, program_add os ha]
      rw [mem_add os ha _ u2, mem_add os ha _ u1] at hr
      rcases hr with hr | ⟨hr | ⟨hr, _⟩, _⟩
      · exact Or.inr hr
      · exact Or.inl hr
      · cases hr
    · intro _ r hr
      simp only [] at hr ⊢
      rw [program_add os ha, program_add os ha] at hr
      rw [mem_add os ha _ u2, mem_add os ha _ u1]
      rcases hr with hr | hr
      · exact Or.inr ⟨Or.inl hr, fun b hb => dst_ne _ _ _ _ _ _ h0 r b hr hb⟩
      · exact Or.inl hr
  · have hup : up = false := by simpa using hup
    rw [hup, net_down, def_down]
    refine ⟨rfl, rfl, rfl, by rw [net_down]; rfl, by rw [def_down]; rfl, ?_, ?_, fun h => (by cases h), h0⟩
    · intro r hr; cases hr
    · intro _ r hr
      rcases hr with e | e <;> cases e

private theorem wanted_iff (v : View) (s : St) (h : Inv v s) (r : Route) : (s.nr = some r ∨ s.dr = some r) ↔ Wanted v r := by
  rw [h.nr, h.dr, net_of, def_of]
  unfold Wanted
  constructor
  · rintro (⟨a, b, c⟩ | ⟨a, b, c⟩)
    · exact ⟨a, Or.inl ⟨b, c⟩⟩
    · exact ⟨a, Or.inr ⟨b, c⟩⟩
  · rintro ⟨a, ⟨b, c⟩ | ⟨b, c⟩⟩
    · exact Or.inl ⟨a, b, c⟩
    · exact Or.inr ⟨a, b, c⟩

/-! ### C127 -/

/-- C127 (partial): after every sequence of link messages, removals of routes by the kernel
and changes of the file, the table of an egress interface has exactly the routes that the
file asks for, and none while the interface is down.  Routes that the kernel has removed
because the interface went down may be missing until the message about it.  Missing: it is
assumed that the interface is up with a carrier, or its routes are gone, when the routes
are changed, and that the kernel accepts the routes (`Fair`); see `C127_stale_negation`,
`C127_never_negation`. -/
theorem C127_table_partial (os : Os) (idx : Nat) (up : Bool) (p : Par) (l : List (Os × Ev))
    (h0 : FairStart os idx up p) (hl : FairRun (start os idx up p) ⟨idx, up, p, false⟩ l) (r : Route) :
    (r ∈ (run (start os idx up p) l).kern → Wanted (seeAll ⟨idx, up, p, false⟩ l) r) ∧
    ((seeAll ⟨idx, up, p, false⟩ l).lost = false → Wanted (seeAll ⟨idx, up, p, false⟩ l) r →
      r ∈ (run (start os idx up p) l).kern) := by
  have h := inv_run l _ _ (inv_start os idx up p h0) hl
  constructor
  · intro hr
    exact (wanted_iff _ _ h r).1 (h.sound r hr)
  · intro hlost hw
    exact h.compl hlost r ((wanted_iff _ _ h r).2 hw)

/-- C127 (partial): nothing is left after shutdown.  Missing: the same assumption as above,
see `C127_stop_negation`. -/
theorem C127_stop_partial (os os' : Os) (idx : Nat) (up : Bool) (p : Par) (l : List (Os × Ev))
    (h0 : FairStart os idx up p) (hl : FairRun (start os idx up p) ⟨idx, up, p, false⟩ l)
    (hs : (seeAll ⟨idx, up, p, false⟩ l).up = true → os'.isUp (seeAll ⟨idx, up, p, false⟩ l).idx = true ∨
      (run (start os idx up p) l).kern = []) :
    (stop os' (run (start os idx up p) l)).kern = [] := by
  have h := inv_run l _ _ (inv_start os idx up p h0) hl
  obtain ⟨v, hv⟩ : ∃ v, v = seeAll ⟨idx, up, p, false⟩ l := ⟨_, rfl⟩
  obtain ⟨s, hs'⟩ : ∃ s, s = run (start os idx up p) l := ⟨_, rfl⟩
  rw [← hv, ← hs'] at h
  rw [← hv, ← hs'] at hs
  rw [← hs']
  have hc : ∀ old k, change .shutdown os' old none k = (none, (program os' false old k).2) := by
    intro old k
    have h2 : ¬ ((old ≠ none ∨ addForced .shutdown = true) ∧ addAllowed .shutdown = true) := by
      simp [addAllowed]
    unfold change
    simp only []
    rw [if_neg h2, if_pos ⟨Or.inr rfl, rfl⟩]
  have e : (stop os' s).kern = (program os' false s.dr (program os' false s.nr s.kern).2).2 := by
    unfold stop configure configDef configNet
    simp only [show forced .shutdown = true from rfl, or_true, if_true, net_down, def_down, hc]
  rw [e]
  by_cases hu : v.up = true
  · rcases hs hu with ho | hk
    · have u1 : Usable os' s.nr := by rw [h.nr]; exact usable_net os' _ _ _ (fun _ => ⟨h.pos hu, ho⟩)
      have u2 : Usable os' s.dr := by rw [h.dr]; exact usable_def os' _ _ _ (fun _ => ⟨h.pos hu, ho⟩)
      rw [List.eq_nil_iff_forall_not_mem]
      intro x hx
      rw [mem_del os' _ u2, mem_del os' _ u1] at hx
      rcases h.sound x hx.1.1 with e | e
      · exact hx.1.2 e
      · exact hx.2 e
    · rw [hk, program_nil, program_nil]
  · rw [kern_nil v s h (by simpa using hu), program_nil, program_nil]

/-- A link that loses its carrier, the file changes, the carrier comes back: the route to
the network `a` of the old file stays in the table. -/
theorem C127_stale_negation (a b : Nat × Nat) (hab : a ≠ b) (ha : a ≠ (0, 0)) (up dn : Os)
    (hu : up.isUp 3 = true ∧ ∀ r, up.accepts r = true) (hd : dn.isUp 3 = false) :
    (⟨a, 3, none, true⟩ : Route) ∈
      (run (start up 3 true ⟨true, false, some a, none⟩)
        [(dn, .remove 3), (dn, .file ⟨true, false, some b, none⟩), (up, .add 3)]).kern ∧
    ¬ Wanted (seeAll ⟨3, true, ⟨true, false, some a, none⟩, false⟩
        [(dn, .remove 3), (dn, .file ⟨true, false, some b, none⟩), (up, .add 3)]) ⟨a, 3, none, true⟩ := by
  constructor
  · have h1 : (start up 3 true ⟨true, false, some a, none⟩) =
        ⟨3, true, ⟨true, false, some a, none⟩, some ⟨a, 3, none, true⟩, some ⟨(0, 0), 3, none, false⟩,
          [⟨(0, 0), 3, none, false⟩, ⟨a, 3, none, true⟩]⟩ := by
      simp [start, configure, configDef, configNet, change, forced, addForced, addAllowed, delAllowed, program, netRoute,
        defRoute, hu.1, hu.2, ha]
    have h2 : step dn (start up 3 true ⟨true, false, some a, none⟩) (.remove 3) =
        ⟨3, false, ⟨true, false, some a, none⟩, none, none, [⟨(0, 0), 3, none, false⟩, ⟨a, 3, none, true⟩]⟩ := by
      rw [h1]
      simp [step, configure, configDef, configNet, change, forced, addAllowed, delAllowed, addForced, delForced, program, netRoute,
        defRoute, hd]
    have h3 : step dn ⟨3, false, ⟨true, false, some a, none⟩, none, none, [⟨(0, 0), 3, none, false⟩, ⟨a, 3, none, true⟩]⟩
        (.file ⟨true, false, some b, none⟩) =
        ⟨3, false, ⟨true, false, some b, none⟩, none, none, [⟨(0, 0), 3, none, false⟩, ⟨a, 3, none, true⟩]⟩ := by
      simp [step, configure, configDef, configNet, change, forced, addAllowed, addForced, delForced, netRoute, defRoute]
    have h4 : (⟨a, 3, none, true⟩ : Route) ∈ (step up ⟨3, false, ⟨true, false, some b, none⟩, none, none,
        [⟨(0, 0), 3, none, false⟩, ⟨a, 3, none, true⟩]⟩ (.add 3)).kern := by
      simp [step, configure, configDef, configNet, change, addAllowed, delAllowed, program, netRoute,
        defRoute, hu.1, hu.2, ha, hab]
    show _ ∈ (step up (step dn (step dn (start up 3 true ⟨true, false, some a, none⟩) (.remove 3)) _) (.add 3)).kern
    rw [h2, h3]
    exact h4
  · rintro ⟨_, ⟨_, d, hd', e⟩ | ⟨_, e⟩⟩
    · have h1 : some b = some d := hd'
      have h2 : a = d := congrArg Route.dst e
      injection h1 with h1
      exact hab (by rw [h2, h1])
    · have : true = false := congrArg Route.network e
      cases this

/-- After the loss of the carrier, the routes outlive the daemon. -/
theorem C127_stop_negation (up dn os : Os) (hu : up.isUp 3 = true ∧ ∀ r, up.accepts r = true) (hd : dn.isUp 3 = false) :
    (stop os (run (start up 3 true ⟨false, false, none, some 9⟩) [(dn, .remove 3)])).kern = [⟨(0, 0), 3, some 9, false⟩] := by
  have h1 : (start up 3 true ⟨false, false, none, some 9⟩) =
      ⟨3, true, ⟨false, false, none, some 9⟩, none, some ⟨(0, 0), 3, some 9, false⟩, [⟨(0, 0), 3, some 9, false⟩]⟩ := by
    simp [start, configure, configDef, configNet, change, forced, addForced, addAllowed, delAllowed, program, netRoute,
      defRoute, hu.1, hu.2]
  show (stop os (step dn (start up 3 true ⟨false, false, none, some 9⟩) (.remove 3))).kern = _
  rw [h1]
  simp [step, stop, configure, configDef, configNet, change, forced, addAllowed, delAllowed, addForced, delForced, program, netRoute,
    defRoute, hd]

private theorem idle_step (s : St) (hu : s.up = true) (os : Os) (e : Ev) (he : e = .add s.idx ∨ e = .file s.par) :
    step os s e = s := by
  rcases he with e' | e'
  · rw [e']
    show (if s.up = true then _ else _) = _
    rw [if_pos hu]
  · rw [e']
    simp [step, configure, configDef, configNet, forced, netChanged, gwChanged]

/-- Messages that the interface is up and polls of the unchanged file change nothing. -/
theorem C127_idle (s : St) (hu : s.up = true) : ∀ l : List (Os × Ev),
    (∀ e ∈ l, e.2 = .add s.idx ∨ e.2 = .file s.par) → run s l = s
  | [], _ => rfl
  | e :: l, h => by
    show run (step e.1 s e.2) l = s
    rw [idle_step s hu e.1 e.2 (h e List.mem_cons_self)]
    exact C127_idle s hu l (fun x hx => h x (List.mem_cons_of_mem _ hx))

/-- If the interface has no carrier for a moment when its message is handled, or the kernel
refuses the route at that time, the route is never made, however often the kernel says that
the interface is up. -/
theorem C127_never_negation (os : Os) (p : Par) (hp : p.rg = true → p.gw ≠ none) (hd : os.isUp 3 = false ∨ ∀ r, os.accepts r = false)
    (l : List (Os × Ev)) (hl : ∀ e ∈ l, e.2 = .add 3 ∨ e.2 = .file p) :
    (run (start os 3 false p) ((os, .add 3) :: l)).kern = [] ∧
    Wanted (seeAll ⟨3, false, p, false⟩ [(os, .add 3)]) ⟨(0, 0), 3, p.gw, false⟩ := by
  refine ⟨?_, rfl, Or.inr ⟨hp, rfl⟩⟩
  have h1 : start os 3 false p = ⟨3, false, p, none, none, []⟩ := by
    simp [start, configure, configDef, configNet, change, forced, addForced, addAllowed, delAllowed, program, net_down, def_down]
  have hpr : ∀ o : Option Route, (∀ r, o = some r → r.idx = 3) → (program os true o []).2 = [] := by
    intro o ho
    cases o with
    | none => rfl
    | some r =>
      simp only [program]
      split
      · rfl
      · rename_i h
        rw [if_neg (by decide)]
        rcases hd with hd | hd
        · rw [ho r rfl, hd] at h; simp at h
        · rw [if_neg (by rw [hd r]; decide)]
  have hch : ∀ new, (∀ r, new = some r → r.idx = 3) → (change .runtime os none new []).2 = [] := by
    intro new hn
    rw [change_eq]
    split
    · exact hpr new hn
    · rfl
  have e1 : step os ⟨3, false, p, none, none, []⟩ (.add 3) = both os ⟨3, true, p, none, none, []⟩ := by
    simp only [step]
    rw [if_neg (by decide)]
    apply configure_runtime <;> (intro h; cases h)
  have hk : (step os ⟨3, false, p, none, none, []⟩ (.add 3)).kern = [] := by
    rw [e1]
    show (change .runtime os none (defRoute true 3 p) (change .runtime os none (netRoute true 3 p) []).2).2 = []
    rw [hch (netRoute true 3 p) (fun r hr => by
      obtain ⟨_, _, d, _, e⟩ := (net_of _ _ _ _).1 hr; rw [e])]
    exact hch _ (fun r hr => by obtain ⟨_, _, e⟩ := (def_of _ _ _ _).1 hr; rw [e])
  show (run (step os (start os 3 false p) (.add 3)) l).kern = []
  rw [h1, C127_idle _ (by rw [e1]; rfl) l (by rw [e1]; exact hl)]
  exact hk

/-! ### Examples -/

/-- Up at startup with a network and a gateway; the file changes both; the interface is
taken down, so that the kernel removes the routes, and comes back with another index. -/
example : run (start ⟨fun _ => true, fun _ => true⟩ 3 true ⟨true, true, some (10, 24), some 1⟩)
    [(⟨fun _ => true, fun _ => true⟩, .file ⟨true, true, some (20, 24), some 2⟩)] =
    ⟨3, true, ⟨true, true, some (20, 24), some 2⟩, some ⟨(20, 24), 3, none, true⟩, some ⟨(0, 0), 3, some 2, false⟩,
      [⟨(0, 0), 3, some 2, false⟩, ⟨(20, 24), 3, none, true⟩]⟩ := by decide

example : (run (start ⟨fun _ => true, fun _ => true⟩ 3 true ⟨true, true, some (10, 24), some 1⟩)
    [(⟨fun _ => true, fun _ => true⟩, .flush 3), (⟨fun _ => false, fun _ => true⟩, .remove 3),
     (⟨fun _ => true, fun _ => true⟩, .add 5)]).kern =
    [⟨(0, 0), 5, some 1, false⟩, ⟨(10, 24), 5, none, true⟩] := by decide

/-- These events are fair. -/
example : FairRun (start ⟨fun _ => true, fun _ => true⟩ 3 true ⟨true, true, some (10, 24), some 1⟩)
    ⟨3, true, ⟨true, true, some (10, 24), some 1⟩, false⟩
    [(⟨fun _ => true, fun _ => true⟩, .flush 3), (⟨fun _ => false, fun _ => true⟩, .remove 3)] := by
  intro pre e post h
  cases pre with
  | nil => injection h with h _; rw [← h]; trivial
  | cons a pre =>
    injection h with h1 h2
    cases pre with
    | nil =>
      injection h2 with h2 _
      rw [← h2, ← h1]
      exact Or.inr (fun r hr => by cases hr)
    | cons b pre =>
      injection h2 with _ h2
      cases pre <;> cases h2

example : FairStart ⟨fun _ => true, fun _ => true⟩ 3 true ⟨true, true, some (10, 24), some 1⟩ :=
  ⟨by decide, fun _ => ⟨by decide, rfl, fun _ => rfl⟩⟩

end Verif.EgRoute
