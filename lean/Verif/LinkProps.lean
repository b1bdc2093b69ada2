import Verif.LinkLemmas
/-!
C39: a neighbour is symmetric exactly if it has a symmetric link.
C58: the link chosen towards a neighbour is a cheapest symmetric one.
-/
namespace Verif.Link

/-! ### Specification -/

/-- States that are reached from the empty link set by events that all meet `P`. -/
inductive Reach (P : State → Op → Prop) : State → Prop where
  | start : Reach P init
  | next {s t : State} {o : Op} : Reach P s → P s o → step s o = some t → Reach P t

/-- No restriction on the events. -/
def Any (_ : State) (_ : Op) : Prop := True

/-- `n` has a symmetric link. -/
def HasSymLink (s : State) (n : Nat) : Prop := ∃ l ∈ s.links, l.nbr = n ∧ l.symTimer = true

/-- C39: the neighbours marked symmetric are those with a symmetric link. -/
def StatusRight (s : State) : Prop :=
  ∀ n b, s.nbrs n = some b → (b.sym = true ↔ HasSymLink s n)

/-- The history of a link, told without the link set: the last HELLO from there that said
something about us said that it hears us, and since then neither its validity ran out, nor was the
link or its interface removed. -/
def heardSym (r i : Nat) : List Op → Bool → Bool
  | [], v => v
  | .hello _ r' i' _ st :: os, v =>
    heardSym r i os
      (if r' = r ∧ i' = i then
        (match st with
         | .sym => true
         | .asym => true
         | .lost => false
         | .unspec => v)
       else v)
  | .symExpire _ r' i' _ :: os, v => heardSym r i os (if r' = r ∧ i' = i then false else v)
  | .linkExpire r' i' :: os, v => heardSym r i os (if r' = r ∧ i' = i then false else v)
  | .addInterface _ :: os, v => heardSym r i os v
  | .removeInterface i' :: os, v => heardSym r i os (if i' = i then false else v)

/-- The MID table knows the addresses of neighbour `n`: the address `r` resolves to a main address
(or is one) that comes with exactly the remote addresses of the links to `n`. -/
def Covers (mid : Mid) (s : State) (r n : Nat) : Prop :=
  ∃ m, (mid.main r = some m ∨ (mid.main r = none ∧ m = r)) ∧
    (r = m ∨ r ∈ mid.aliases m) ∧
    ∀ l ∈ s.links, l.nbr = n ↔ (l.remote = m ∨ l.remote ∈ mid.aliases m)

/-- The MID table in force knows the neighbour whenever its status is worked out. -/
def MidComplete (s : State) : Op → Prop
  | .hello mid r _ src _ => Covers mid s r src
  | .symExpire mid r i _ => ∀ l ∈ s.links, l.remote = r → l.iface = i → Covers mid s r l.nbr
  | _ => True

/-- The removal of the links that meet `gone` leaves the status of their neighbours right by
itself: for each of them, it is not symmetric, or a symmetric one to the same neighbour stays, or
none stays. -/
def Harmless (s : State) (gone : Link → Prop) : Prop :=
  ∀ l ∈ s.links, gone l →
    l.symTimer = false ∨
    (∃ k ∈ s.links, ¬ gone k ∧ k.nbr = l.nbr ∧ k.symTimer = true) ∨
    (∀ k ∈ s.links, k.nbr = l.nbr → gone k)

/-- Events the code handles correctly: the MID table is complete, a sym timer runs out only if the
last HELLO announced the link as symmetric, and links are removed only if that is harmless. -/
def Handled (s : State) (o : Op) : Prop :=
  MidComplete s o ∧
  match o with
  | .symExpire _ r i _ => ∀ l ∈ s.links, l.remote = r → l.iface = i → l.prev = .sym
  | .linkExpire r i => Harmless s (fun l => l.remote = r ∧ l.iface = i)
  | .removeInterface i => Harmless s (fun l => l.iface = i)
  | _ => True

/-! ### Lemmas -/

private theorem reach_ok {P : State → Op → Prop} {s : State} (h : Reach P s) : Ok s := by
  induction h with
  | start => exact init_ok
  | next _ _ hs ih => exact step_ok ih hs

private theorem mainOf_eq {mid : Mid} {r m : Nat}
    (h : mid.main r = some m ∨ (mid.main r = none ∧ m = r)) : mainOf mid r = m := by
  unfold mainOf
  rcases h with h | ⟨h, rfl⟩ <;> rw [h]

/-- The status worked out in a state `u` whose links of `n` are those the MID table knows. -/
private theorem status_right {mid : Mid} {u : State} {r n m : Nat} (hu : Ok u)
    (h1 : mid.main r = some m ∨ (mid.main r = none ∧ m = r))
    (h2 : ∀ l ∈ u.links, l.nbr = n ↔ (l.remote = m ∨ l.remote ∈ mid.aliases m)) :
    neighborStatus mid u r = true ↔ HasSymLink u n := by
  rw [status_iff hu.uniq hu.ifs, mainOf_eq h1]
  constructor
  · rintro ⟨l, hl, hs, hk⟩
    exact ⟨l, hl, (h2 l hl).2 hk, hs⟩
  · rintro ⟨l, hl, hn, hs⟩
    exact ⟨l, hl, hs, (h2 l hl).1 hn⟩

private theorem hasSym_update {u : State} {n m : Nat} {v : Bool} :
    HasSymLink (updateStatus u m v) n ↔ HasSymLink u n := by
  unfold HasSymLink
  rw [updateStatus_links]

private theorem hello_ok_mid {mid : Mid} {s t : State} {r i src : Nat} {st : Status} (h : Ok s)
    (hi : i ∈ s.ifs) (ht : hello mid s r i src st = some t) {u : State} {v : Bool}
    (hu : t = updateStatus u src v) : Ok u := by
  have ht' := hello_ok h hi ht
  subst hu
  refine ⟨?_, ?_, ?_⟩
  · have := ht'.uniq; rwa [updateStatus_links] at this
  · have := ht'.ifs; rwa [updateStatus_links, updateStatus_ifs] at this
  · intro n
    have := ht'.cnt n
    rw [updateStatus_links] at this
    by_cases hn : n = src
    · subst hn
      cases hb : u.nbrs n with
      | none =>
        unfold updateStatus at this
        rw [hb] at this
        simp only [hb] at this
        rcases this with ⟨_, h1⟩ | h1
        · exact Or.inl ⟨rfl, h1⟩
        · exact Or.inr h1
      | some b =>
        unfold updateStatus at this
        rw [hb] at this
        simp only [setNbr, if_true] at this
        rcases this with ⟨h1, _⟩ | ⟨c, h1, h2, h3⟩
        · cases h1
        · rw [Option.some.injEq] at h1
          subst h1
          exact Or.inr ⟨b, rfl, h2, h3⟩
    · rw [updateStatus_other hn] at this
      exact this

/-- What a HELLO does to the status of the sender and of the others. -/
private theorem hello_status {mid : Mid} {s t : State} {r i src : Nat} {st : Status} (h : Ok s)
    (hi : i ∈ s.ifs) (ht : hello mid s r i src st = some t) (hc : Covers mid s r src) :
    (∀ b, t.nbrs src = some b → (b.sym = true ↔ HasSymLink t src)) ∧
    (∀ n, n ≠ src → t.nbrs n = s.nbrs n ∧ (HasSymLink t n ↔ HasSymLink s n)) := by
  obtain ⟨u, v, hu, hv, hn, hx, hy⟩ := hello_spec h ht
  obtain ⟨m, h1, h2, h3⟩ := hc
  have huok := hello_ok_mid h hi ht hu
  have hcov : ∀ l ∈ u.links, l.nbr = src ↔ (l.remote = m ∨ l.remote ∈ mid.aliases m) := by
    intro l hl
    rcases hx l hl with ⟨hl', _⟩ | ⟨e1, _, e3⟩
    · exact h3 l hl'
    · rw [e1, e3]
      exact ⟨fun _ => h2, fun _ => rfl⟩
  have hst := status_right (n := src) huok h1 hcov
  constructor
  · intro b hb
    rw [hu] at hb ⊢
    rw [updateStatus_same hb, hasSym_update, hv]
    exact hst
  · intro n hne
    rw [hu, updateStatus_other hne, hasSym_update]
    refine ⟨hn n hne, ?_⟩
    constructor
    · rintro ⟨l, hl, e1, e2⟩
      rcases hx l hl with ⟨hl', _⟩ | ⟨_, _, e3⟩
      · exact ⟨l, hl', e1, e2⟩
      · exact absurd (e1.symm.trans e3) hne
    · rintro ⟨l, hl, e1, e2⟩
      refine ⟨l, hy l hl ?_, e1, e2⟩
      intro hk
      -- the link of this key belongs to `src`
      unfold hello at ht
      have hlk := lookup_of_mem h.uniq hl
      rw [hk.1, hk.2] at hlk
      rw [hlk] at ht
      simp only at ht
      split at ht
      · rename_i he
        exact hne (e1.symm.trans he)
      · cases ht

/-- Links after a sym timer has fired. -/
private theorem symExpire_links {mid : Mid} {s : State} {l : Link} {heard : Bool} (h : Ok s)
    (hl : l ∈ s.links) (n : Nat) :
    HasSymLink (symExpire mid s l heard) n ↔
      ∃ k ∈ s.links, ¬ SameKey k l ∧ k.nbr = n ∧ k.symTimer = true := by
  have one : ∀ k : Link, k ∈ s.links → (k.remote = l.remote ∧ k.iface = l.iface) → k = l :=
    fun k hk e => uniq_eq h.uniq hk hl e
  have base : ∀ f : Link → Link, (∀ x, (f x).symTimer = x.symTimer ∧ (f x).nbr = x.nbr) →
      ((∃ k ∈ (modifyLink (modifyLink s l.remote l.iface (fun x => { x with symTimer := false }))
        l.remote l.iface f).links, k.nbr = n ∧ k.symTimer = true) ↔
      ∃ k ∈ s.links, ¬ SameKey k l ∧ k.nbr = n ∧ k.symTimer = true) := by
    intro f hf
    constructor
    · rintro ⟨k, hk, e1, e2⟩
      obtain ⟨y, hy, rfl⟩ := modify_mem hk
      obtain ⟨x, hx, rfl⟩ := modify_mem hy
      by_cases hkey : x.remote = l.remote ∧ x.iface = l.iface
      · simp only [if_pos hkey] at e2
        rw [(hf _).1] at e2
        cases e2
      · simp only [if_neg hkey] at e1 e2
        exact ⟨x, hx, hkey, e1, e2⟩
    · rintro ⟨k, hk, hkey, e1, e2⟩
      unfold SameKey at hkey
      refine ⟨k, ?_, e1, e2⟩
      have m1 := mem_modify (r := l.remote) (i := l.iface)
        (f := fun x => { x with symTimer := false }) hk
      rw [if_neg hkey] at m1
      have m2 := mem_modify (r := l.remote) (i := l.iface) (f := f) m1
      rwa [if_neg hkey] at m2
  have base1 : (∃ k ∈ (modifyLink s l.remote l.iface (fun x => { x with symTimer := false })).links,
        k.nbr = n ∧ k.symTimer = true) ↔
      ∃ k ∈ s.links, ¬ SameKey k l ∧ k.nbr = n ∧ k.symTimer = true := by
    constructor
    · rintro ⟨k, hk, e1, e2⟩
      obtain ⟨x, hx, rfl⟩ := modify_mem hk
      by_cases hkey : x.remote = l.remote ∧ x.iface = l.iface
      · simp only [if_pos hkey] at e2
        cases e2
      · simp only [if_neg hkey] at e1 e2
        exact ⟨x, hx, hkey, e1, e2⟩
    · rintro ⟨k, hk, hkey, e1, e2⟩
      unfold SameKey at hkey
      refine ⟨k, ?_, e1, e2⟩
      have m1 := mem_modify (r := l.remote) (i := l.iface)
        (f := fun x => { x with symTimer := false }) hk
      rwa [if_neg hkey] at m1
  unfold symExpire
  simp only
  split
  · exact base1
  · rw [hasSym_update]
    exact base _ (fun x => ⟨rfl, rfl⟩)

private theorem symExpire_status {mid : Mid} {s : State} {l : Link} {heard : Bool} (h : Ok s)
    (hc : Covers mid s l.remote l.nbr) :
    (l.prev = .sym → ∀ b, (symExpire mid s l heard).nbrs l.nbr = some b →
      (b.sym = true ↔ HasSymLink (symExpire mid s l heard) l.nbr)) ∧
    (∀ n, n ≠ l.nbr → (symExpire mid s l heard).nbrs n = s.nbrs n) ∧
    (l.prev ≠ .sym → (symExpire mid s l heard).nbrs = s.nbrs) := by
  obtain ⟨m, h1, h2, h3⟩ := hc
  have k1 : Keeps (fun x : Link => { x with symTimer := false }) := fun x => ⟨rfl, rfl, rfl⟩
  have k2 : Keeps (fun x : Link => { x with prev := if heard then .asym else .lost }) :=
    fun x => ⟨rfl, rfl, rfl⟩
  refine ⟨?_, ?_, ?_⟩
  · intro hp b hb
    unfold symExpire at hb ⊢
    simp only [hp, ne_eq, not_true_eq_false, if_false] at hb ⊢
    rw [updateStatus_same hb, hasSym_update]
    refine status_right (modify_ok (modify_ok h k1) k2) h1 ?_
    intro x hx
    obtain ⟨y, hy, rfl⟩ := modify_mem hx
    obtain ⟨z, hz, rfl⟩ := modify_mem hy
    by_cases hkey : z.remote = l.remote ∧ z.iface = l.iface
    · simp only [hkey, and_self, if_true]
      have := h3 z hz
      rw [hkey.1] at this
      exact this
    · simp only [if_neg hkey]
      exact h3 z hz
  · intro n hn
    unfold symExpire
    simp only
    split
    · rfl
    · rw [updateStatus_other hn]; rfl
  · intro hp
    unfold symExpire
    simp only [if_pos hp]
    rfl

/-- The removal of links when it is harmless. -/
private theorem removal_right {s t : State} {gone : Link → Prop} (hs : StatusRight s)
    (ht : Ok t) (hl : ∀ x, x ∈ t.links ↔ x ∈ s.links ∧ ¬ gone x)
    (hn : ∀ n b, t.nbrs n = some b → ∃ c, s.nbrs n = some c ∧ c.sym = b.sym)
    (hh : Harmless s gone) : StatusRight t := by
  intro n b hb
  obtain ⟨c, hc, e⟩ := hn n b hb
  rw [← e, hs n c hc]
  constructor
  · rintro ⟨l, hl', e1, e2⟩
    by_cases hg : gone l
    · rcases hh l hl' hg with h1 | ⟨k, hk, h1, h2, h3⟩ | h1
      · rw [h1] at e2; cases e2
      · exact ⟨k, (hl k).2 ⟨hk, h1⟩, h2.trans e1, h3⟩
      · -- no link of `n` is left, so there is no entry
        exfalso
        rcases ht.cnt n with ⟨h2, _⟩ | ⟨d, _, h3, h4⟩
        · rw [h2] at hb; cases hb
        · have : ∃ x ∈ t.links, (x.nbr == n) = true := by
            rw [h4] at h3
            exact List.countP_pos_iff.1 h3
          obtain ⟨x, hx, hxn⟩ := this
          have := (hl x).1 hx
          exact this.2 (h1 x this.1 ((beq_iff_eq.1 hxn).trans e1.symm))
    · exact ⟨l, (hl l).2 ⟨hl', hg⟩, e1, e2⟩
  · rintro ⟨l, hl', e1, e2⟩
    exact ⟨l, ((hl l).1 hl').1, e1, e2⟩

/-! ### C39 -/

/-- C39, the bookkeeping behind it, for all sequences of events: there is at most one link per
remote address and interface, every link uses an interface we have, and there is a neighbour entry
exactly for those with a link, which counts the links right. -/
theorem C39_bookkeeping {s : State} (h : Reach Any s) :
    (s.links.Pairwise (fun a b => ¬ (a.remote = b.remote ∧ a.iface = b.iface))) ∧
    (∀ l ∈ s.links, l.iface ∈ s.ifs) ∧
    (∀ n, (s.nbrs n).isSome ↔ ∃ l ∈ s.links, l.nbr = n) ∧
    (∀ n b, s.nbrs n = some b → b.count = (s.links.filter (fun l => l.nbr == n)).length) := by
  have ok := reach_ok h
  refine ⟨ok.uniq, ok.ifs, ?_, ?_⟩
  · intro n
    rcases ok.cnt n with ⟨h1, h2⟩ | ⟨b, h1, h2, h3⟩
    · rw [h1]
      refine ⟨fun x => (by cases x), ?_⟩
      rintro ⟨l, hl, rfl⟩
      have := List.countP_eq_zero.1 h2 l hl
      simp only [beq_self_eq_true, not_true_eq_false] at this
    · rw [h1]
      refine ⟨fun _ => ?_, fun _ => rfl⟩
      rw [h3] at h2
      obtain ⟨l, hl, e⟩ := List.countP_pos_iff.1 h2
      exact ⟨l, hl, beq_iff_eq.1 e⟩
  · intro n b hb
    rcases ok.cnt n with ⟨h1, _⟩ | ⟨c, h1, _, h3⟩
    · rw [h1] at hb; cases hb
    · rw [h1, Option.some.injEq] at hb
      rw [← hb, h3, List.countP_eq_length_filter]

/-- The link from `r` over `i` is there and its sym timer is running. -/
private def SymOn (s : State) (r i : Nat) : Prop :=
  ∃ l ∈ s.links, l.remote = r ∧ l.iface = i ∧ l.symTimer = true

private theorem modify_symOn {s t : State} {r i r' i' : Nat} {f : Link → Link} (hf : Keeps f)
    (ht : t.links = (modifyLink s r' i' f).links) :
    SymOn t r i ↔
      (r' = r ∧ i' = i ∧ ∃ l ∈ s.links, l.remote = r ∧ l.iface = i ∧ (f l).symTimer = true) ∨
      (¬ (r' = r ∧ i' = i) ∧ SymOn s r i) := by
  unfold SymOn
  rw [ht]
  constructor
  · rintro ⟨l, hl, e1, e2, e3⟩
    obtain ⟨x, hx, rfl⟩ := modify_mem hl
    by_cases hx' : x.remote = r' ∧ x.iface = i'
    · rw [if_pos hx'] at e1 e2 e3
      rw [(hf x).1] at e1
      rw [(hf x).2.1] at e2
      exact Or.inl ⟨hx'.1.symm.trans e1, hx'.2.symm.trans e2, x, hx, e1, e2, e3⟩
    · rw [if_neg hx'] at e1 e2 e3
      refine Or.inr ⟨?_, x, hx, e1, e2, e3⟩
      rintro ⟨rfl, rfl⟩
      exact hx' ⟨e1, e2⟩
  · rintro (⟨rfl, rfl, x, hx, e1, e2, e3⟩ | ⟨hk, x, hx, e1, e2, e3⟩)
    · have := mem_modify (r := r') (i := i') (f := f) hx
      rw [if_pos ⟨e1, e2⟩] at this
      exact ⟨f x, this, (hf x).1.trans e1, (hf x).2.1.trans e2, e3⟩
    · have := mem_modify (r := r') (i := i') (f := f) hx
      rw [if_neg (fun h => hk ⟨h.1.symm.trans e1, h.2.symm.trans e2⟩)] at this
      exact ⟨x, this, e1, e2, e3⟩

/-- One event and the history of a link. -/
private theorem step_history {s t : State} {o : Op} (h : Ok s) (hs : step s o = some t)
    (r i : Nat) {v : Bool} (hv : SymOn s r i ↔ v = true) :
    SymOn t r i ↔ heardSym r i [o] v = true := by
  cases o with
  | hello mid r' i' src st =>
    unfold step at hs
    simp only at hs
    split at hs
    · rename_i hi
      unfold hello at hs
      have key : ∀ u : State, u.links = s.links ∨
          (lookupLink s r' i' = none ∧ u.links = s.links ++ [⟨r', i', src, false, .asym⟩]) →
          (∃ l ∈ u.links, l.remote = r' ∧ l.iface = i') →
          (t.links = (modifyLink u r' i' (applyStatus st)).links) →
          (SymOn t r i ↔ heardSym r i [.hello mid r' i' src st] v = true) := by
        intro u hul hex htl
        have hsu : SymOn u r i ↔ SymOn s r i := by
          unfold SymOn
          rcases hul with hul | ⟨_, hul⟩
          · rw [hul]
          · rw [hul]
            constructor
            · rintro ⟨l, hl, e1, e2, e3⟩
              rcases List.mem_append.1 hl with hl | hl
              · exact ⟨l, hl, e1, e2, e3⟩
              · rw [List.mem_singleton] at hl
                subst hl
                cases e3
            · rintro ⟨l, hl, e⟩
              exact ⟨l, List.mem_append_left _ hl, e⟩
        rw [modify_symOn (applyStatus_keeps st) htl, hsu, hv]
        simp only [heardSym]
        by_cases hk : r' = r ∧ i' = i
        · obtain ⟨rfl, rfl⟩ := hk
          simp only [and_self, not_true_eq_false, false_and, or_false, true_and, if_true]
          obtain ⟨l, hl, hl1, hl2⟩ := hex
          cases st with
          | sym => exact ⟨fun _ => rfl, fun _ => ⟨l, hl, hl1, hl2, rfl⟩⟩
          | asym => exact ⟨fun _ => rfl, fun _ => ⟨l, hl, hl1, hl2, rfl⟩⟩
          | lost => exact ⟨fun ⟨_, _, _, _, e⟩ => (by cases e), fun e => (by cases e)⟩
          | unspec =>
            simp only
            rw [← hv, ← hsu]
            exact Iff.rfl
        · rw [if_neg hk]
          constructor
          · rintro (⟨e1, e2, _⟩ | ⟨_, e⟩)
            · exact absurd ⟨e1, e2⟩ hk
            · exact e
          · exact fun e => Or.inr ⟨hk, e⟩
      cases hl : lookupLink s r' i' with
      | some l =>
        rw [hl] at hs
        simp only at hs
        split at hs
        · cases hs
          exact key s (Or.inl rfl) ⟨l, lookup_some hl⟩ (updateStatus_links _ _ _)
        · cases hs
      | none =>
        rw [hl] at hs
        simp only at hs
        cases hs
        exact key (addLink s r' i' src) (Or.inr ⟨hl, rfl⟩)
          ⟨⟨r', i', src, false, .asym⟩, List.mem_append_right _ (List.mem_singleton.2 rfl), rfl, rfl⟩
          (updateStatus_links _ _ _)
    · cases hs
  | symExpire mid r' i' heard =>
    unfold step at hs
    simp only at hs
    split at hs
    · rename_i l hl
      split at hs
      · cases hs
        have hl' := lookup_some hl
        have k1 : Keeps (fun x : Link => { x with symTimer := false }) := fun x => ⟨rfl, rfl, rfl⟩
        have k2 : Keeps (fun x : Link => { x with prev := if heard then .asym else .lost }) :=
          fun x => ⟨rfl, rfl, rfl⟩
        have one : SymOn (modifyLink s l.remote l.iface (fun x => { x with symTimer := false })) r i
            ↔ heardSym r i [.symExpire mid r' i' heard] v = true := by
          rw [modify_symOn k1 rfl, hl'.2.1, hl'.2.2, hv]
          simp only [heardSym]
          by_cases hk : r' = r ∧ i' = i
          · rw [if_pos hk]
            constructor
            · rintro (⟨_, _, _, _, _, _, e⟩ | ⟨e, _⟩)
              · cases e
              · exact absurd hk e
            · intro e; cases e
          · rw [if_neg hk]
            constructor
            · rintro (⟨e1, e2, _⟩ | ⟨_, e⟩)
              · exact absurd ⟨e1, e2⟩ hk
              · exact e
            · exact fun e => Or.inr ⟨hk, e⟩
        unfold symExpire
        simp only
        split
        · exact one
        · rw [modify_symOn k2 (updateStatus_links _ _ _), ← one]
          constructor
          · rintro (⟨_, _, x, hx, e1, e2, e3⟩ | ⟨_, e⟩)
            · exact ⟨x, hx, e1, e2, e3⟩
            · exact e
          · intro e
            by_cases hk : l.remote = r ∧ l.iface = i
            · exact Or.inl ⟨hk.1, hk.2, e⟩
            · exact Or.inr ⟨hk, e⟩
      · cases hs
    · cases hs
  | linkExpire r' i' =>
    unfold step at hs
    simp only at hs
    split at hs
    · rename_i l hl
      cases hs
      have hl' := lookup_some hl
      simp only [heardSym]
      by_cases hk : r' = r ∧ i' = i
      · rw [if_pos hk]
        refine ⟨?_, fun e => by cases e⟩
        rintro ⟨x, hx, e1, e2, _⟩
        exact absurd ⟨e1.trans (hk.1.symm.trans hl'.2.1.symm),
          e2.trans (hk.2.symm.trans hl'.2.2.symm)⟩ (delete_mem.1 hx).2
      · rw [if_neg hk, ← hv]
        constructor
        · rintro ⟨x, hx, e⟩
          exact ⟨x, (delete_mem.1 hx).1, e⟩
        · rintro ⟨x, hx, e1, e2, e3⟩
          refine ⟨x, delete_mem.2 ⟨hx, fun hsk => hk ?_⟩, e1, e2, e3⟩
          exact ⟨hl'.2.1.symm.trans (hsk.1.symm.trans e1), hl'.2.2.symm.trans (hsk.2.symm.trans e2)⟩
    · cases hs
  | addInterface i' =>
    unfold step at hs
    simp only at hs
    split at hs
    · cases hs
    · cases hs
      exact hv
  | removeInterface i' =>
    unfold step at hs
    cases hs
    simp only [heardSym]
    by_cases hk : i' = i
    · rw [if_pos hk]
      refine ⟨?_, fun e => by cases e⟩
      rintro ⟨x, hx, _, e2, _⟩
      exact absurd (e2.trans hk.symm) ((remove_mem h).1 hx).2
    · rw [if_neg hk, ← hv]
      constructor
      · rintro ⟨x, hx, e⟩
        exact ⟨x, ((remove_mem h).1 hx).1, e⟩
      · rintro ⟨x, hx, e1, e2, e3⟩
        exact ⟨x, (remove_mem h).2 ⟨hx, fun e => hk (e.symm.trans e2)⟩, e1, e2, e3⟩

private theorem run_history : ∀ (os : List Op) {s t : State}, Ok s → run s os = some t →
    ∀ (r i : Nat) (v : Bool), (SymOn s r i ↔ v = true) →
      (SymOn t r i ↔ heardSym r i os v = true) := by
  intro os
  induction os with
  | nil => intro s t _ ht r i v hv; cases ht; exact hv
  | cons o os ih =>
    intro s t h ht r i v hv
    unfold run at ht
    cases hs : step s o with
    | none => rw [hs] at ht; cases ht
    | some u =>
      rw [hs] at ht
      have h1 := step_history h hs r i hv
      have h2 := ih (step_ok h hs) ht r i _ h1
      rw [h2]
      cases o <;> exact Iff.rfl

/-- C39, the links themselves, for every sequence of events: a link is symmetric exactly if the
last HELLO from there that listed us did not list us as lost, and since then its validity has not
run out and neither the link nor its interface was removed. -/
theorem C39_link_history {os : List Op} {s : State} (h : run init os = some s) (r i : Nat) :
    (∃ l ∈ s.links, l.remote = r ∧ l.iface = i ∧ l.symTimer = true) ↔
      heardSym r i os false = true :=
  run_history os init_ok h r i false
    ⟨fun ⟨_, hl, _⟩ => (by cases hl), fun e => (by cases e)⟩

/-- A HELLO makes the status of its sender right whatever went wrong before, if the MID table knows
the sender. -/
theorem C39_hello_repairs {s t : State} {mid : Mid} {r i src : Nat} {st : Status}
    (h : Reach Any s) (hc : Covers mid s r src) (ht : step s (.hello mid r i src st) = some t) :
    ∃ b, t.nbrs src = some b ∧ (b.sym = true ↔ HasSymLink t src) := by
  have ok := reach_ok h
  have ok' := step_ok ok ht
  unfold step at ht
  simp only at ht
  split at ht
  · rename_i hi
    have hst := hello_status ok hi ht hc
    obtain ⟨u, v, hu, _, _, _, _⟩ := hello_spec ok ht
    have hex : ∃ l ∈ t.links, l.nbr = src := by
      unfold hello at ht
      cases hl : lookupLink s r i with
      | some l =>
        rw [hl] at ht
        simp only at ht
        split at ht
        · rename_i he
          cases ht
          rw [updateStatus_links]
          have := mem_modify (r := r) (i := i) (f := applyStatus st) (lookup_some hl).1
          rw [if_pos (lookup_some hl).2] at this
          exact ⟨_, this, ((applyStatus_keeps st l).2.2).trans he⟩
        · cases ht
      | none =>
        rw [hl] at ht
        simp only at ht
        cases ht
        rw [updateStatus_links]
        have hm : (⟨r, i, src, false, .asym⟩ : Link) ∈ (addLink s r i src).links :=
          List.mem_append_right _ (List.mem_singleton.2 rfl)
        have := mem_modify (r := r) (i := i) (f := applyStatus st) hm
        rw [if_pos ⟨rfl, rfl⟩] at this
        exact ⟨_, this, (applyStatus_keeps st _).2.2⟩
    rcases ok'.cnt src with ⟨h1, h2⟩ | ⟨b, h1, _, _⟩
    · obtain ⟨l, hl, e⟩ := hex
      have := List.countP_eq_zero.1 h2 l hl
      simp only [e, beq_self_eq_true, not_true_eq_false] at this
    · exact ⟨b, h1, hst.1 b h1⟩
  · cases ht

private theorem half_step {s t : State} {o : Op} (ok : Ok s) (hm : MidComplete s o)
    (hs : step s o = some t) (ih : ∀ n b, s.nbrs n = some b → HasSymLink s n → b.sym = true) :
    ∀ n b, t.nbrs n = some b → HasSymLink t n → b.sym = true := by
  intro n b hb hx
  cases o with
  | hello mid r i src st =>
    unfold step at hs
    simp only at hs
    split at hs
    · rename_i hi
      have hst := hello_status ok hi hs hm
      by_cases hn : n = src
      · subst hn
        exact (hst.1 b hb).2 hx
      · have := hst.2 n hn
        rw [this.1] at hb
        exact ih n b hb (this.2.1 hx)
    · cases hs
  | symExpire mid r i heard =>
    unfold step at hs
    simp only at hs
    split at hs
    · rename_i l hl
      split at hs
      · cases hs
        have hl' := lookup_some hl
        have hcov : Covers mid s l.remote l.nbr := by
          rw [hl'.2.1]; exact hm l hl'.1 hl'.2.1 hl'.2.2
        have hst := symExpire_status (heard := heard) ok hcov
        obtain ⟨k, hk, _, e2, e3⟩ := (symExpire_links ok hl'.1 n).1 hx
        by_cases hn : n = l.nbr
        · by_cases hp : l.prev = .sym
          · subst hn
            exact (hst.1 hp b hb).2 hx
          · rw [hst.2.2 hp] at hb
            exact ih n b hb ⟨k, hk, e2, e3⟩
        · rw [hst.2.1 n hn] at hb
          exact ih n b hb ⟨k, hk, e2, e3⟩
      · cases hs
    · cases hs
  | linkExpire r i =>
    unfold step at hs
    simp only at hs
    split at hs
    · cases hs
      obtain ⟨c, hc, e⟩ := delete_status hb
      obtain ⟨k, hk, e2⟩ := hx
      rw [← e]
      exact ih n c hc ⟨k, (delete_mem.1 hk).1, e2⟩
    · cases hs
  | addInterface i =>
    unfold step at hs
    simp only at hs
    split at hs
    · cases hs
    · cases hs
      exact ih n b hb hx
  | removeInterface i =>
    unfold step at hs
    cases hs
    obtain ⟨c, hc, e⟩ := remove_status hb
    obtain ⟨k, hk, e2⟩ := hx
    rw [← e]
    exact ih n c hc ⟨k, ((remove_mem ok).1 hk).1, e2⟩

/-- C39, one direction: as long as the MID table is complete, a neighbour with a symmetric link is
marked symmetric, whatever expires or is removed.

Full statement: `∀ s, Reach Any s → StatusRight s`.  It fails without the MID knowledge
(`C39_unknown_alias_loses_sym`), and in the other direction (`C39_asym_expiry_keeps_sym`,
`C39_interface_removal_keeps_sym`). -/
theorem C39_sym_link_partial {s : State} (h : Reach MidComplete s) {n : Nat} (hn : HasSymLink s n) :
    ∃ b, s.nbrs n = some b ∧ b.sym = true := by
  have all : ∀ n b, s.nbrs n = some b → HasSymLink s n → b.sym = true := by
    clear hn
    induction h with
    | start => intro n b hb _; cases hb
    | next hr hp hs ih => exact half_step (reach_ok hr) hp hs ih
  rcases (reach_ok h).cnt n with ⟨h1, h2⟩ | ⟨b, h1, _, _⟩
  · obtain ⟨l, hl, e, _⟩ := hn
    have := List.countP_eq_zero.1 h2 l hl
    simp only [e, beq_self_eq_true, not_true_eq_false] at this
  · exact ⟨b, h1, all n b h1 hn⟩

/-- C39, both directions, for the events the code handles correctly.

Full statement: `∀ s, Reach Any s → StatusRight s`; the three witnesses below show that none of the
three restrictions in `Handled` can be dropped. -/
theorem C39_status_partial {s : State} (h : Reach Handled s) : StatusRight s := by
  induction h with
  | start => intro n b hb; cases hb
  | next hr hp hs ih =>
    rename_i s t o
    have ok := reach_ok hr
    have ok' := step_ok ok hs
    intro n b hb
    refine ⟨fun hsym => ?_, fun hx =>
      half_step ok hp.1 hs (fun n b h1 h2 => (ih n b h1).2 h2) n b hb hx⟩
    cases o with
    | hello mid r i src st =>
      unfold step at hs
      simp only at hs
      split at hs
      · rename_i hi
        have hst := hello_status ok hi hs hp.1
        by_cases hn : n = src
        · subst hn
          exact (hst.1 b hb).1 hsym
        · have := hst.2 n hn
          rw [this.1] at hb
          exact this.2.2 ((ih n b hb).1 hsym)
      · cases hs
    | symExpire mid r i heard =>
      unfold step at hs
      simp only at hs
      split at hs
      · rename_i l hl
        split at hs
        · cases hs
          have hl' := lookup_some hl
          have hcov : Covers mid s l.remote l.nbr := by
            rw [hl'.2.1]; exact hp.1 l hl'.1 hl'.2.1 hl'.2.2
          have hst := symExpire_status (heard := heard) ok hcov
          by_cases hn : n = l.nbr
          · subst hn
            exact (hst.1 (hp.2 l hl'.1 hl'.2.1 hl'.2.2) b hb).1 hsym
          · rw [hst.2.1 n hn] at hb
            obtain ⟨k, hk, e1, e2⟩ := (ih n b hb).1 hsym
            refine (symExpire_links ok hl'.1 n).2 ⟨k, hk, ?_, e1, e2⟩
            intro hsk
            rw [uniq_eq ok.uniq hk hl'.1 hsk] at e1
            exact hn e1.symm
        · cases hs
      · cases hs
    | linkExpire r i =>
      unfold step at hs
      simp only at hs
      split at hs
      · rename_i l hl
        cases hs
        have hl' := lookup_some hl
        refine (removal_right ih ok' (gone := fun x => x.remote = r ∧ x.iface = i) ?_ ?_ hp.2
          n b hb).1 hsym
        · intro x
          rw [delete_mem]
          unfold SameKey
          rw [hl'.2.1, hl'.2.2]
        · exact fun n b h => delete_status h
      · cases hs
    | addInterface i =>
      unfold step at hs
      simp only at hs
      split at hs
      · cases hs
      · cases hs
        exact (ih n b hb).1 hsym
    | removeInterface i =>
      unfold step at hs
      cases hs
      exact (removal_right ih ok' (gone := fun x => x.iface = i) (fun x => remove_mem ok)
        (fun n b h => remove_status h) hp.2 n b hb).1 hsym

/-! ### Where C39 fails -/

/-- A MID table without entries. -/
def noMid : Mid := { main := fun _ => none, aliases := fun _ => [] }

private theorem cov {s : State} {r n : Nat} (h : ∀ l ∈ s.links, l.nbr = n ↔ l.remote = r) :
    Covers noMid s r n := by
  refine ⟨r, Or.inr ⟨rfl, rfl⟩, Or.inl rfl, fun l hl => ?_⟩
  rw [h l hl]
  exact ⟨Or.inl, fun e => e.elim id (fun e => by cases e)⟩

/-- State after some events. -/
private def after (os : List Op) : State := (run init os).getD init

private theorem after_next {P : State → Op → Prop} {os : List Op} {o : Op}
    (h : Reach P (after os)) (hp : P (after os) o) (hs : (step (after os) o).isSome)
    (ho : (run init os).isSome) : Reach P (after (os ++ [o])) := by
  obtain ⟨t, ht⟩ := Option.isSome_iff_exists.1 hs
  refine Reach.next h hp (t := after (os ++ [o])) ?_
  obtain ⟨u, hu⟩ := Option.isSome_iff_exists.1 ho
  have e : after os = u := by unfold after; rw [hu]; rfl
  rw [e] at ht
  have r : ∀ (os : List Op) (s : State), run s os = some u → run s (os ++ [o]) = some t := by
    intro os
    induction os with
    | nil => intro s h; cases h; simp only [List.nil_append, run, ht]
    | cons p ps ih =>
      intro s h
      rw [List.cons_append]
      unfold run at h ⊢
      cases hp : step s p with
      | none => rw [hp] at h; cases h
      | some v => rw [hp] at h; exact ih v h
  rw [e, ht]
  unfold after
  rw [r os init hu]
  rfl

/-- A HELLO that lists us as heard (asymmetric), then nothing more, until the sym timer fires. -/
private def w1 : List Op :=
  [.addInterface 1, .hello noMid 10 1 10 .asym, .symExpire noMid 10 1 true]

/-- C39 fails when the sym timer runs out after a HELLO that announced the link as asymmetric (or
did not list us): `olsr_expire_link_sym_timer` returns early and the neighbour stays symmetric with
no symmetric link.  The MID table is complete all along. -/
theorem C39_asym_expiry_keeps_sym :
    ∃ s n b, Reach MidComplete s ∧ s.nbrs n = some b ∧ b.sym = true ∧ ¬ HasSymLink s n := by
  refine ⟨after w1, 10, ⟨true, 1⟩, ?_, by decide, rfl, ?_⟩
  · have a0 : Reach MidComplete (after []) := Reach.start
    have a1 := after_next a0 (o := .addInterface 1) trivial rfl rfl
    have a2 := after_next a1 (o := .hello noMid 10 1 10 .asym) (cov (by decide)) rfl rfl
    exact after_next a2 (o := .symExpire noMid 10 1 true)
      (fun l hl _ _ => by
        have hall : ∀ l ∈ (after ([] ++ [.addInterface 1] ++ [.hello noMid 10 1 10 .asym])).links,
            l.nbr = 10 := by decide
        rw [hall l hl]
        exact cov (by decide)) rfl rfl
  · have hall : ∀ l ∈ (after w1).links, ¬ (l.symTimer = true) := by decide
    rintro ⟨l, hl, _, h⟩
    exact hall l hl h

/-- Two links to one neighbour, only the first symmetric; its interface goes away. -/
private def w2 : List Op :=
  [.addInterface 1, .addInterface 2, .hello noMid 10 1 10 .sym, .hello noMid 10 2 10 .unspec,
   .removeInterface 1]

/-- C39 fails when the symmetric one of several links to a neighbour is removed:
`olsr_delete_link_entry` only counts the links and does not look at the status again. -/
theorem C39_interface_removal_keeps_sym :
    ∃ s n b, Reach MidComplete s ∧ s.nbrs n = some b ∧ b.sym = true ∧ ¬ HasSymLink s n := by
  refine ⟨after w2, 10, ⟨true, 1⟩, ?_, by decide, rfl, ?_⟩
  · have a0 : Reach MidComplete (after []) := Reach.start
    have a1 := after_next a0 (o := .addInterface 1) trivial rfl rfl
    have a2 := after_next a1 (o := .addInterface 2) trivial rfl rfl
    have a3 := after_next a2 (o := .hello noMid 10 1 10 .sym) (cov (by decide)) rfl rfl
    have a4 := after_next a3 (o := .hello noMid 10 2 10 .unspec) (cov (by decide)) rfl rfl
    exact after_next a4 (o := .removeInterface 1) trivial rfl rfl
  · have hall : ∀ l ∈ (after w2).links, ¬ (l.symTimer = true) := by decide
    rintro ⟨l, hl, _, h⟩
    exact hall l hl h

/-- A symmetric link, then the first HELLO from another address of the same neighbour. -/
private def w3 : List Op :=
  [.addInterface 1, .addInterface 2, .hello noMid 10 1 10 .sym, .hello noMid 11 2 10 .unspec]

/-- C39 fails without MID knowledge: the first HELLO from a second address of a symmetric neighbour
makes it asymmetric, since `get_neighbor_status` looks at that address only, although both links
point to the same neighbour entry.  (`olsr_hello_tap` registers the alias only afterwards,
process_package.c 475-487.) -/
theorem C39_unknown_alias_loses_sym :
    ∃ s n b, Reach Any s ∧ s.nbrs n = some b ∧ b.sym = false ∧ HasSymLink s n := by
  refine ⟨after w3, 10, ⟨false, 2⟩, ?_, by decide, rfl, ?_⟩
  · have a0 : Reach Any (after []) := Reach.start
    have a1 := after_next a0 (o := .addInterface 1) trivial rfl rfl
    have a2 := after_next a1 (o := .addInterface 2) trivial rfl rfl
    have a3 := after_next a2 (o := .hello noMid 10 1 10 .sym) trivial rfl rfl
    exact after_next a3 (o := .hello noMid 11 2 10 .unspec) trivial rfl rfl
  · exact ⟨⟨10, 1, 10, true, .sym⟩, by decide, rfl, rfl⟩

/-- Three links to two neighbours; a sym timer fires after a symmetric HELLO, a link expires: all
of it within `Handled`, and the status is right on both sides. -/
example : (run init [.addInterface 1, .hello noMid 10 1 10 .asym, .hello noMid 20 1 20 .sym,
      .hello noMid 10 1 10 .sym, .symExpire noMid 20 1 true]).map
      (fun s => (s.nbrs 10, s.nbrs 20, s.links.map (fun l => (l.nbr, l.symTimer)))) =
    some (some ⟨true, 1⟩, some ⟨false, 1⟩, [(10, true), (20, false)]) := by decide

/-- The run of the example is one of handled events. -/
example : Reach Handled (after [.addInterface 1, .hello noMid 20 1 20 .sym,
    .symExpire noMid 20 1 true, .linkExpire 20 1]) := by
  have a0 : Reach Handled (after []) := Reach.start
  have a1 := after_next a0 (o := .addInterface 1) ⟨trivial, trivial⟩ rfl rfl
  have a2 := after_next a1 (o := .hello noMid 20 1 20 .sym) ⟨cov (by decide), trivial⟩ rfl rfl
  have hall : ∀ l ∈ (after ([] ++ [.addInterface 1] ++ [.hello noMid 20 1 20 .sym])).links,
      l.nbr = 20 ∧ l.prev = .sym := by decide
  have a3 := after_next a2 (o := .symExpire noMid 20 1 true)
    ⟨fun l hl _ _ => by rw [(hall l hl).1]; exact cov (by decide),
     fun l hl _ _ => (hall l hl).2⟩ rfl rfl
  have hall2 : ∀ l ∈ (after ([] ++ [.addInterface 1] ++ [.hello noMid 20 1 20 .sym] ++
      [.symExpire noMid 20 1 true])).links, l.symTimer = false := by decide
  exact after_next a3 (o := .linkExpire 20 1) ⟨trivial, fun l hl _ => Or.inl (hall2 l hl)⟩ rfl rfl

/-- The history of a link: heard, then lost again. -/
example : (run init [.addInterface 1, .hello noMid 10 1 10 .asym, .hello noMid 10 1 10 .unspec]).map
      (fun s => s.links) = some [⟨10, 1, 10, true, .unspec⟩] ∧
    heardSym 10 1 [.addInterface 1, .hello noMid 10 1 10 .asym, .hello noMid 10 1 10 .unspec] false
      = true ∧
    heardSym 10 1 [.addInterface 1, .hello noMid 10 1 10 .asym, .hello noMid 10 1 10 .lost] false
      = false := by decide

/-! ### C58 -/

/-- The links of `n` that can be used. -/
def Usable (ls : List Cand) (n : Nat) (w : Cand) : Prop := w ∈ ls ∧ w.nbr = n ∧ w.cost < broken

/-- Whatever is chosen is a link of that neighbour. -/
theorem C58_is_link {ls : List Cand} {n : Nat} {w : Cand} (h : bestLink n ls = some w) :
    w ∈ ls ∧ w.nbr = n := by
  have inv : ∀ (xs : List Cand) (c : Nat × Option Cand × Option Cand), (∀ x ∈ xs, x ∈ ls) →
      (∀ g, c.2.1 = some g → g ∈ ls ∧ g.nbr = n) → (∀ g, c.2.2 = some g → g ∈ ls ∧ g.nbr = n) →
      (∀ g, (xs.foldl (bestStep n) c).2.1 = some g → g ∈ ls ∧ g.nbr = n) ∧
      (∀ g, (xs.foldl (bestStep n) c).2.2 = some g → g ∈ ls ∧ g.nbr = n) := by
    intro xs
    induction xs with
    | nil => intro c _ h1 h2; exact ⟨h1, h2⟩
    | cons x xs ih =>
      intro c hm h1 h2
      rw [List.foldl_cons]
      have hx := hm x (List.mem_cons_self ..)
      refine ih _ (fun y hy => hm y (List.mem_cons_of_mem _ hy)) ?_ ?_
      · intro g hg
        unfold bestStep at hg
        split at hg
        · split at hg
          · split at hg
            · rw [Option.some.injEq] at hg; subst hg; exact ⟨hx, by assumption⟩
            · exact h1 g hg
          · exact h1 g hg
        · exact h1 g hg
      · intro g hg
        unfold bestStep at hg
        split at hg
        · split at hg
          · split at hg
            · exact h2 g hg
            · rw [Option.some.injEq] at hg; subst hg; exact ⟨hx, by assumption⟩
          · exact h2 g hg
        · exact h2 g hg
  have := inv ls (broken, none, none) (fun x hx => hx) (fun g hg => by cases hg)
    (fun g hg => by cases hg)
  unfold bestLink at h
  obtain ⟨c, hc⟩ : ∃ c, ls.foldl (bestStep n) (broken, none, none) = c := ⟨_, rfl⟩
  rw [hc] at h this
  obtain ⟨a, g, b⟩ := c
  cases g with
  | some g => exact this.1 w h
  | none => exact this.2 w h

/-- If some cheapest usable link of the neighbour is symmetric and no asymmetric one is as cheap,
the choice is a symmetric link of minimal cost.

Full statement: whenever the neighbour has a usable symmetric link, the choice is a symmetric link
that is cheapest among the symmetric ones.  It fails, `C58_misses_symmetric`. -/
theorem C58_best_partial {ls : List Cand} {n : Nat} {w : Cand} (hw : Usable ls n w)
    (hs : w.sym = true) (hmin : ∀ x, Usable ls n x → w.cost ≤ x.cost)
    (hasym : ∀ x, Usable ls n x → x.sym = false → w.cost < x.cost) :
    ∃ g, bestLink n ls = some g ∧ Usable ls n g ∧ g.sym = true ∧ g.cost = w.cost := by
  obtain ⟨hwm, hwn, hwc⟩ := hw
  have inv : ∀ (xs : List Cand) (c : Nat × Option Cand × Option Cand), (∀ x ∈ xs, x ∈ ls) →
      w.cost ≤ c.1 → c.1 ≤ broken →
      (c.1 = w.cost → ∃ g, c.2.1 = some g ∧ g ∈ ls ∧ g.nbr = n ∧ g.sym = true ∧ g.cost = w.cost) →
      (w ∈ xs ∨ c.1 = w.cost) →
      ∃ g, (xs.foldl (bestStep n) c).2.1 = some g ∧ g ∈ ls ∧ g.nbr = n ∧ g.sym = true ∧
        g.cost = w.cost := by
    intro xs
    induction xs with
    | nil =>
      intro c _ _ _ h3 h4
      rcases h4 with h4 | h4
      · cases h4
      · exact h3 h4
    | cons x xs ih =>
      intro c hm h1 h2 h3 h4
      rw [List.foldl_cons]
      have hx := hm x (List.mem_cons_self ..)
      have hm' : ∀ y ∈ xs, y ∈ ls := fun y hy => hm y (List.mem_cons_of_mem _ hy)
      by_cases hxn : x.nbr = n
      · by_cases hbetter : x.cost < c.1 ∨ (x.cost = c.1 ∧ x.tie = true)
        · by_cases hxs : x.sym = true
          · have he : bestStep n c x = (x.cost, some x, c.2.2) := by
              unfold bestStep; rw [if_pos hxn, if_pos hbetter, if_pos hxs]
            rw [he]
            refine ih _ hm' ?_ ?_ ?_ ?_
            · show w.cost ≤ x.cost
              by_cases hb : x.cost < broken
              · exact hmin x ⟨hx, hxn, hb⟩
              · omega
            · show x.cost ≤ broken
              omega
            · intro e
              exact ⟨x, rfl, hx, hxn, hxs, e⟩
            · show w ∈ xs ∨ x.cost = w.cost
              rcases h4 with h4 | h4
              · rcases List.mem_cons.1 h4 with rfl | h4
                · exact Or.inr rfl
                · exact Or.inl h4
              · refine Or.inr ?_
                have : w.cost ≤ x.cost := by
                  by_cases hb : x.cost < broken
                  · exact hmin x ⟨hx, hxn, hb⟩
                  · omega
                omega
          · have he : bestStep n c x = (x.cost, c.2.1, some x) := by
              unfold bestStep; rw [if_pos hxn, if_pos hbetter, if_neg hxs]
            rw [he]
            have hlt : w.cost < x.cost := by
              by_cases hb : x.cost < broken
              · exact hasym x ⟨hx, hxn, hb⟩ (by simpa using hxs)
              · omega
            refine ih _ hm' (Nat.le_of_lt hlt) ?_ ?_ ?_
            · show x.cost ≤ broken
              omega
            · intro e
              exact absurd e (Nat.ne_of_gt hlt)
            · rcases h4 with h4 | h4
              · rcases List.mem_cons.1 h4 with rfl | h4
                · exact absurd hs hxs
                · exact Or.inl h4
              · omega
        · have he : bestStep n c x = c := by
            unfold bestStep; rw [if_pos hxn, if_neg hbetter]
          rw [he]
          refine ih c hm' h1 h2 h3 ?_
          rcases h4 with h4 | h4
          · rcases List.mem_cons.1 h4 with rfl | h4
            · refine Or.inr ?_
              omega
            · exact Or.inl h4
          · exact Or.inr h4
      · have he : bestStep n c x = c := by
          unfold bestStep; rw [if_neg hxn]
        rw [he]
        refine ih c hm' h1 h2 h3 ?_
        rcases h4 with h4 | h4
        · rcases List.mem_cons.1 h4 with rfl | h4
          · exact absurd hwn hxn
          · exact Or.inl h4
        · exact Or.inr h4
  obtain ⟨g, h1, h2, h3, h4, h5⟩ := inv ls (broken, none, none) (fun x hx => hx)
    (Nat.le_of_lt hwc) (Nat.le_refl _) (fun e => absurd e.symm (Nat.ne_of_lt hwc)) (Or.inl hwm)
  refine ⟨g, ?_, ⟨h2, h3, by omega⟩, h4, h5⟩
  unfold bestLink
  obtain ⟨c, hc⟩ : ∃ c, ls.foldl (bestStep n) (broken, none, none) = c := ⟨_, rfl⟩
  rw [hc] at h1 ⊢
  obtain ⟨a, b, d⟩ := c
  simp only at h1
  rw [h1]

/-- No usable link: nothing is chosen, unless a broken one meets the tie-break. -/
theorem C58_none {ls : List Cand} {n : Nat} (h : ∀ w ∈ ls, w.nbr = n → broken < w.cost ∨
    (w.cost = broken ∧ w.tie = false)) : bestLink n ls = none := by
  have inv : ∀ xs : List Cand, (∀ x ∈ xs, x ∈ ls) →
      xs.foldl (bestStep n) (broken, none, none) = (broken, none, none) := by
    intro xs
    induction xs with
    | nil => intro _; rfl
    | cons x xs ih =>
      intro hm
      have he : bestStep n (broken, none, none) x = (broken, none, none) := by
        unfold bestStep
        by_cases hn : x.nbr = n
        · rw [if_pos hn]
          apply if_neg
          rcases h x (hm x (List.mem_cons_self ..)) hn with h1 | ⟨h1, h2⟩
          · rintro (h3 | ⟨h3, _⟩) <;> simp only at h3 <;> omega
          · rintro (h3 | ⟨_, h3⟩)
            · simp only at h3; omega
            · rw [h2] at h3; cases h3
        · rw [if_neg hn]
      rw [List.foldl_cons, he]
      exact ih (fun y hy => hm y (List.mem_cons_of_mem _ hy))
  unfold bestLink
  rw [inv ls (fun x hx => hx)]

/-- C58 fails: an asymmetric link that is cheaper hides the symmetric one that comes later, and an
asymmetric link is chosen; and it hides a cheaper symmetric link behind it. -/
theorem C58_misses_symmetric :
    (∃ ls n w g, Usable ls n w ∧ w.sym = true ∧ bestLink n ls = some g ∧ g.sym = false) ∧
    (∃ ls n w g, Usable ls n w ∧ w.sym = true ∧ bestLink n ls = some g ∧ g.sym = true ∧
      w.cost < g.cost) := by
  refine ⟨⟨[⟨1, 5, false, false⟩, ⟨1, 7, false, true⟩], 1, ⟨1, 7, false, true⟩, ⟨1, 5, false, false⟩,
    ⟨by decide, rfl, by decide⟩, rfl, by decide, rfl⟩,
    ⟨[⟨1, 9, false, true⟩, ⟨1, 5, false, false⟩, ⟨1, 7, false, true⟩], 1, ⟨1, 7, false, true⟩,
    ⟨1, 9, false, true⟩, ⟨by decide, rfl, by decide⟩, rfl, by decide, rfl, by decide⟩⟩

example : bestLink 1 [⟨1, 9, false, false⟩, ⟨2, 3, false, true⟩, ⟨1, 7, false, true⟩,
    ⟨1, 8, false, false⟩] = some ⟨1, 7, false, true⟩ ∧
    bestLink 1 [⟨1, 4194304, false, true⟩] = none ∧
    bestLink 1 [⟨1, 4194304, true, true⟩] = some ⟨1, 4194304, true, true⟩ := by decide

end Verif.Link
