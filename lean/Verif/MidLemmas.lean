import Verif.MidModel
/-! Lemmas on the MID tables. -/
namespace Verif.Mid

/-- The two MID tables fit together. -/
structure Tables (s : State) : Prop where
  mains : s.ents.Pairwise (fun x y => x.main ≠ y.main)
  alis : s.rev.Pairwise (fun p q => p.1 ≠ q.1)
  link : ∀ a m, (a, m) ∈ s.rev ↔ ∃ e ∈ s.ents, e.main = m ∧ a ∈ e.aliases
  nodup : ∀ e ∈ s.ents, e.aliases.Nodup

/-- Same MID tables. -/
def Same (s t : State) : Prop := t.ents = s.ents ∧ t.rev = s.rev

theorem Same.refl (s : State) : Same s s := ⟨rfl, rfl⟩

theorem Same.trans {s t u : State} (h1 : Same s t) (h2 : Same t u) : Same s u :=
  ⟨h2.1.trans h1.1, h2.2.trans h1.2⟩

theorem Same.tables {s t : State} (h : Same s t) (ht : Tables s) : Tables t := by
  obtain ⟨h1, h2⟩ := h
  refine ⟨?_, ?_, ?_, ?_⟩
  · rw [h1]; exact ht.mains
  · rw [h2]; exact ht.alis
  · rw [h1, h2]; exact ht.link
  · rw [h1]; exact ht.nodup

theorem Same.lookupMain {s t : State} (h : Same s t) (a : Nat) :
    lookupMain t a = lookupMain s a := by
  unfold Verif.Mid.lookupMain; rw [h.2]

theorem Same.entry {s t : State} (h : Same s t) (m : Nat) : entry t m = entry s m := by
  unfold Verif.Mid.entry; rw [h.1]

theorem Same.lookupAliases {s t : State} (h : Same s t) (m : Nat) :
    lookupAliases t m = lookupAliases s m := by
  unfold Verif.Mid.lookupAliases; rw [h.entry]

theorem same_dedup (m : Nat) (s : State) (t : Nat) : Same s (dedupNb m s t) := by
  unfold dedupNb
  split <;> exact ⟨rfl, rfl⟩

theorem same_dedups (m : Nat) : ∀ (ts : List Nat) (s : State), Same s (ts.foldl (dedupNb m) s) := by
  intro ts
  induction ts with
  | nil => intro s; exact Same.refl s
  | cons t ts ih => intro s; exact (same_dedup m s t).trans (ih _)

theorem same_insertNb (s : State) (m : Nat) : Same s (insertNb s m).1 := by
  unfold insertNb
  split <;> exact ⟨rfl, rfl⟩

theorem lookupMain_some {s : State} (ht : Tables s) {a m : Nat} :
    lookupMain s a = some m ↔ (a, m) ∈ s.rev := by
  unfold lookupMain
  constructor
  · intro h
    rw [Option.map_eq_some_iff] at h
    obtain ⟨p, hp, rfl⟩ := h
    have h1 := List.mem_of_find?_eq_some hp
    have h2 := List.find?_some hp
    rw [beq_iff_eq] at h2
    rw [← h2]; exact h1
  · intro h
    have hal := ht.alis
    generalize s.rev = r at h hal
    induction r with
    | nil => cases h
    | cons p ps ih =>
      rw [List.pairwise_cons] at hal
      rcases List.mem_cons.1 h with rfl | h
      · simp only [List.find?_cons, beq_self_eq_true, Option.map_some]
      · have hne : p.1 ≠ a := hal.1 (a, m) h
        rw [List.find?_cons]
        have : (p.1 == a) = false := beq_eq_false_iff_ne.2 hne
        rw [this]
        exact ih h hal.2

theorem lookupMain_none {s : State} {a : Nat} :
    lookupMain s a = none ↔ ∀ m, (a, m) ∉ s.rev := by
  unfold lookupMain
  rw [Option.map_eq_none_iff, List.find?_eq_none]
  constructor
  · intro h m hm
    exact h (a, m) hm (beq_self_eq_true a)
  · intro h p hp he
    rw [beq_iff_eq] at he
    obtain ⟨x, y⟩ := p
    simp only at he
    subst he
    exact h y hp

theorem entry_some {s : State} (ht : Tables s) {m : Nat} {e : Ent} :
    entry s m = some e ↔ e ∈ s.ents ∧ e.main = m := by
  unfold entry
  constructor
  · intro h
    exact ⟨List.mem_of_find?_eq_some h, by simpa using List.find?_some h⟩
  · rintro ⟨h1, h2⟩
    have hm := ht.mains
    generalize s.ents = l at h1 hm
    induction l with
    | nil => cases h1
    | cons x xs ih =>
      rw [List.pairwise_cons] at hm
      rcases List.mem_cons.1 h1 with rfl | h1
      · rw [List.find?_cons, h2, beq_self_eq_true]
      · have hne : x.main ≠ m := by rw [← h2]; exact hm.1 e h1
        rw [List.find?_cons, beq_eq_false_iff_ne.2 hne]
        exact ih h1 hm.2

theorem entry_none {s : State} {m : Nat} :
    entry s m = none ↔ ∀ e ∈ s.ents, e.main ≠ m := by
  unfold entry
  rw [List.find?_eq_none]
  simp only [beq_iff_eq, ne_eq]

theorem mem_aliases {s : State} (ht : Tables s) {a m : Nat} :
    a ∈ lookupAliases s m ↔ (a, m) ∈ s.rev := by
  rw [ht.link]
  unfold lookupAliases
  cases he : entry s m with
  | none =>
    simp only [List.not_mem_nil, false_iff]
    rintro ⟨e, h1, h2, _⟩
    exact entry_none.1 he e h1 h2
  | some e =>
    have := (entry_some ht).1 he
    constructor
    · intro h; exact ⟨e, this.1, this.2, h⟩
    · rintro ⟨e', h1, h2, h3⟩
      have : entry s m = some e' := (entry_some ht).2 ⟨h1, h2⟩
      rw [he, Option.some.injEq] at this
      rw [this]; exact h3

theorem rev_nodup {r : List (Nat × Nat)} (h : r.Pairwise (fun p q => p.1 ≠ q.1)) : r.Nodup :=
  h.imp (fun hne he => hne (by rw [he]))

/-- Taking several pairs out of a table. -/
theorem mem_erases {m : Nat} : ∀ (as : List Nat) (r : List (Nat × Nat)),
    r.Pairwise (fun p q => p.1 ≠ q.1) →
    (as.foldl (fun r a => r.erase (a, m)) r).Pairwise (fun p q => p.1 ≠ q.1) ∧
    ∀ p, p ∈ as.foldl (fun r a => r.erase (a, m)) r ↔ p ∈ r ∧ ¬ (p.2 = m ∧ p.1 ∈ as) := by
  intro as
  induction as with
  | nil =>
    intro r h
    refine ⟨h, fun p => ⟨fun hp => ⟨hp, fun hh => by cases hh.2⟩, fun hp => hp.1⟩⟩
  | cons a as ih =>
    intro r h
    rw [List.foldl_cons]
    have h' : (r.erase (a, m)).Pairwise (fun p q => p.1 ≠ q.1) :=
      List.Pairwise.sublist List.erase_sublist h
    refine ⟨(ih _ h').1, fun p => ?_⟩
    rw [(ih _ h').2 p, (rev_nodup h).mem_erase_iff]
    constructor
    · rintro ⟨⟨h1, h2⟩, h3⟩
      refine ⟨h2, fun hh => ?_⟩
      rcases List.mem_cons.1 hh.2 with e | e
      · apply h1
        rw [← e, ← hh.1]
      · exact h3 ⟨hh.1, e⟩
    · rintro ⟨h1, h2⟩
      refine ⟨⟨fun e => ?_, h1⟩, fun hh => h2 ⟨hh.1, List.mem_cons_of_mem _ hh.2⟩⟩
      subst e
      exact h2 ⟨rfl, List.mem_cons_self ..⟩

theorem deleteEnt_tables {s : State} (ht : Tables s) {e : Ent} (he : e ∈ s.ents) :
    Tables (deleteEnt s e) ∧
    ∀ p, p ∈ (deleteEnt s e).rev ↔ p ∈ s.rev ∧ p.2 ≠ e.main := by
  have hx := mem_erases (m := e.main) e.aliases s.rev ht.alis
  have hrev : ∀ p, p ∈ (deleteEnt s e).rev ↔ p ∈ s.rev ∧ p.2 ≠ e.main := by
    intro p
    show p ∈ e.aliases.foldl _ s.rev ↔ _
    rw [hx.2 p]
    constructor
    · rintro ⟨h1, h2⟩
      refine ⟨h1, fun hm => ?_⟩
      obtain ⟨e', he', hm', ha'⟩ := (ht.link p.1 p.2).1 h1
      have : e' = e := by
        have h1 := (entry_some ht).2 ⟨he', hm'.trans hm⟩
        rw [(entry_some ht).2 ⟨he, rfl⟩, Option.some.injEq] at h1
        exact h1.symm
      rw [this] at ha'
      exact h2 ⟨hm, ha'⟩
    · rintro ⟨h1, h2⟩
      exact ⟨h1, fun hh => h2 hh.1⟩
  refine ⟨⟨ht.mains.filter _, hx.1, ?_, ?_⟩, hrev⟩
  · intro a m
    rw [hrev, ht.link]
    constructor
    · rintro ⟨⟨x, hx1, hx2, hx3⟩, hne⟩
      refine ⟨x, List.mem_filter.2 ⟨hx1, ?_⟩, hx2, hx3⟩
      rw [bne_iff_ne, hx2]; exact hne
    · rintro ⟨x, hx1, hx2, hx3⟩
      obtain ⟨h1, h2⟩ := List.mem_filter.1 hx1
      rw [bne_iff_ne] at h2
      exact ⟨⟨x, h1, hx2, hx3⟩, by show m ≠ e.main; rw [← hx2]; exact h2⟩
  · intro x hx
    exact ht.nodup x (List.mem_filter.1 hx).1

theorem addAlias_tables {s : State} (ht : Tables s) {m a : Nat} (ha : ∀ x, (a, x) ∉ s.rev) :
    Tables (addAlias s m a) ∧ (addAlias s m a).rev = (a, m) :: s.rev := by
  have halis : ((a, m) :: s.rev).Pairwise (fun p q => p.1 ≠ q.1) := by
    rw [List.pairwise_cons]
    refine ⟨?_, ht.alis⟩
    rintro ⟨x, y⟩ hp e
    simp only at e
    subst e
    exact ha y hp
  unfold addAlias
  cases he : entry s m with
  | none =>
    have hn := entry_none.1 he
    refine ⟨⟨?_, halis, ?_, ?_⟩, rfl⟩
    · show List.Pairwise _ (_ :: s.ents)
      rw [List.pairwise_cons]
      exact ⟨fun x hx e => hn x hx e.symm, ht.mains⟩
    · intro b k
      show (b, k) ∈ (a, m) :: s.rev ↔ ∃ e ∈ ({ main := m, aliases := [a] } : Ent) :: s.ents, _
      constructor
      · intro h
        rcases List.mem_cons.1 h with h | h
        · rw [Prod.mk.injEq] at h
          exact ⟨_, List.mem_cons_self .., h.2.symm, by rw [h.1]; exact List.mem_singleton.2 rfl⟩
        · obtain ⟨e, h1, h2⟩ := (ht.link b k).1 h
          exact ⟨e, List.mem_cons_of_mem _ h1, h2⟩
      · rintro ⟨e, h1, h2, h3⟩
        rcases List.mem_cons.1 h1 with rfl | h1
        · rw [List.mem_singleton] at h3
          rw [h3, ← h2]
          exact List.mem_cons_self ..
        · exact List.mem_cons_of_mem _ ((ht.link b k).2 ⟨e, h1, h2, h3⟩)
    · intro e h1
      rcases List.mem_cons.1 h1 with rfl | h1
      · exact List.pairwise_singleton _ _
      · exact ht.nodup e h1
  | some e =>
    obtain ⟨he1, he2⟩ := (entry_some ht).1 he
    have hmain : ∀ x : Ent, (if x.main = m then { x with aliases := a :: x.aliases } else x).main =
        x.main := by
      intro x; split <;> rfl
    refine ⟨⟨?_, halis, ?_, ?_⟩, rfl⟩
    · show List.Pairwise _ (s.ents.map _)
      rw [List.pairwise_map]
      refine ht.mains.imp ?_
      intro x y h
      rw [hmain, hmain]; exact h
    · intro b k
      show (b, k) ∈ (a, m) :: s.rev ↔ ∃ e ∈ s.ents.map _, _
      constructor
      · intro h
        rcases List.mem_cons.1 h with h | h
        · rw [Prod.mk.injEq] at h
          refine ⟨_, List.mem_map.2 ⟨e, he1, rfl⟩, ?_, ?_⟩
          · rw [hmain, he2, h.2]
          · rw [if_pos he2, h.1]; exact List.mem_cons_self ..
        · obtain ⟨x, h1, h2, h3⟩ := (ht.link b k).1 h
          refine ⟨_, List.mem_map.2 ⟨x, h1, rfl⟩, ?_, ?_⟩
          · rw [hmain, h2]
          · split
            · exact List.mem_cons_of_mem _ h3
            · exact h3
      · rintro ⟨y, hy, h2, h3⟩
        obtain ⟨x, hx, rfl⟩ := List.mem_map.1 hy
        rw [hmain] at h2
        by_cases hxm : x.main = m
        · rw [if_pos hxm] at h3
          rcases List.mem_cons.1 h3 with h3 | h3
          · rw [h3, ← h2, hxm]; exact List.mem_cons_self ..
          · exact List.mem_cons_of_mem _ ((ht.link b k).2 ⟨x, hx, h2, h3⟩)
        · rw [if_neg hxm] at h3
          exact List.mem_cons_of_mem _ ((ht.link b k).2 ⟨x, hx, h2, h3⟩)
    · intro y hy
      obtain ⟨x, hx, rfl⟩ := List.mem_map.1 hy
      by_cases hxm : x.main = m
      · rw [if_pos hxm]
        show (a :: x.aliases).Nodup
        rw [List.nodup_cons]
        refine ⟨fun hm => ?_, ht.nodup x hx⟩
        exact ha x.main ((ht.link a x.main).2 ⟨x, hx, rfl, hm⟩)
      · rw [if_neg hxm]; exact ht.nodup x hx

/-- `insert_mid_tuple`: if the alias is not registered with another main address, the tables still
fit together, and the alias is the only change. -/
theorem insertTuple_tables {s : State} (ht : Tables s) {m a : Nat}
    (ha : ∀ x, (a, x) ∈ s.rev → x = m) :
    Tables (insertTuple s m a) ∧
    ∀ p, p ∈ (insertTuple s m a).rev ↔ p ∈ s.rev ∨ p = (a, m) := by
  unfold insertTuple
  by_cases hl : lookupMain s a = some m
  · rw [if_pos hl]
    refine ⟨ht, fun p => ⟨Or.inl, fun h => ?_⟩⟩
    rcases h with h | rfl
    · exact h
    · exact (lookupMain_some ht).1 hl
  · rw [if_neg hl]
    have hn : ∀ x, (a, x) ∉ s.rev := by
      intro x hx
      have := ha x hx
      subst this
      exact hl ((lookupMain_some ht).2 hx)
    have h1 := addAlias_tables (m := m) ht hn
    have hs := same_dedups m (a :: lookupAliases s m) (addAlias s m a)
    refine ⟨hs.tables h1.1, fun p => ?_⟩
    rw [hs.2, h1.2, List.mem_cons]
    exact ⟨fun h => h.elim Or.inr Or.inl, fun h => h.elim Or.inr Or.inl⟩

/-- `insert_mid_alias` under the same condition: pairs are added for the alias, or vanish for the
alias as main address. -/
theorem insertAlias_tables {env : Env} {s : State} (ht : Tables s) {m a : Nat}
    (ha : ∀ x, (a, x) ∈ s.rev → x = m) :
    Tables (insertAlias env s m a) ∧
    (∀ p, p ∈ (insertAlias env s m a).rev → p ∈ s.rev ∨ p = (a, m)) ∧
    (∀ p, p ∈ s.rev → p.2 ≠ a → p ∈ (insertAlias env s m a).rev) ∧
    (env.valid a = true → (a, m) ∈ (insertAlias env s m a).rev) := by
  unfold insertAlias
  by_cases hv : env.valid a = true
  · rw [if_pos hv]
    cases hnb : nbOf s a with
    | none =>
      simp only
      have := insertTuple_tables ht ha
      exact ⟨this.1, fun p hp => (this.2 p).1 hp, fun p hp _ => (this.2 p).2 (Or.inl hp),
        fun _ => (this.2 _).2 (Or.inr rfl)⟩
    | some old =>
      simp only
      have hs3 : Same s (replaceLinks (insertNb (deleteNb s a) m).1 old.ptr
          (insertNb (deleteNb s a) m).2) := by
        have h1 : Same s (deleteNb s a) := ⟨rfl, rfl⟩
        have h2 := same_insertNb (deleteNb s a) m
        exact (h1.trans h2).trans ⟨rfl, rfl⟩
      generalize replaceLinks (insertNb (deleteNb s a) m).1 old.ptr
          (insertNb (deleteNb s a) m).2 = s3 at hs3
      have ht3 := hs3.tables ht
      cases he : entry s3 a with
      | none =>
        simp only
        have := insertTuple_tables (m := m) (a := a) ht3 (by rw [hs3.2]; exact ha)
        rw [hs3.2] at this
        exact ⟨this.1, fun p hp => (this.2 p).1 hp, fun p hp _ => (this.2 p).2 (Or.inl hp),
          fun _ => (this.2 _).2 (Or.inr rfl)⟩
      | some e =>
        simp only
        obtain ⟨he1, he2⟩ := (entry_some ht3).1 he
        have hd := deleteEnt_tables ht3 he1
        have := insertTuple_tables (m := m) (a := a) hd.1 (by
          intro x hx
          have := ((hd.2 _).1 hx).1
          rw [hs3.2] at this
          exact ha x this)
        refine ⟨this.1, fun p hp => ?_, fun p hp hne => ?_, fun _ => (this.2 _).2 (Or.inr rfl)⟩
        · rcases (this.2 p).1 hp with h | h
          · have := ((hd.2 p).1 h).1
            rw [hs3.2] at this
            exact Or.inl this
          · exact Or.inr h
        · refine (this.2 p).2 (Or.inl ((hd.2 p).2 ⟨?_, ?_⟩))
          · rw [hs3.2]; exact hp
          · rw [he2]; exact hne
  · rw [if_neg hv]
    exact ⟨ht, fun p hp => Or.inl hp, fun p hp _ => hp, fun h => absurd h hv⟩

theorem midLoop_tables {env : Env} {orig : Nat} : ∀ (as : List Nat) {s : State}, Tables s →
    Tables (midLoop env orig s as) ∧
    (∀ p, p ∈ (midLoop env orig s as).rev → p ∈ s.rev ∨ (p.2 = orig ∧ p.1 ∈ as)) ∧
    (orig ∉ as → ∀ p, p ∈ s.rev → p.2 = orig → p ∈ (midLoop env orig s as).rev) ∧
    (orig ∉ as → ∀ a ∈ as, env.valid a = true → a ∉ env.own → (∀ m, (a, m) ∉ s.rev) →
      (a, orig) ∈ (midLoop env orig s as).rev) := by
  intro as
  induction as with
  | nil =>
    intro s ht
    exact ⟨ht, fun p hp => Or.inl hp, fun _ p hp _ => hp, fun _ a ha => by cases ha⟩
  | cons b bs ih =>
    intro s ht
    unfold midLoop
    by_cases hown : env.own.contains b = true
    · rw [if_pos hown]
      have := ih ht
      refine ⟨this.1, ?_, ?_, ?_⟩
      · intro p hp
        rcases this.2.1 p hp with h | ⟨h1, h2⟩
        · exact Or.inl h
        · exact Or.inr ⟨h1, List.mem_cons_of_mem _ h2⟩
      · intro ho p hp he
        exact this.2.2.1 (fun h => ho (List.mem_cons_of_mem _ h)) p hp he
      · intro ho a ha hv hno hm
        rcases List.mem_cons.1 ha with rfl | ha
        · exact absurd (List.contains_iff_mem.1 hown) hno
        · exact this.2.2.2 (fun h => ho (List.mem_cons_of_mem _ h)) a ha hv hno hm
    · rw [if_neg hown]
      cases hl : lookupMain s b with
      | some x =>
        simp only
        have := ih ht
        refine ⟨this.1, ?_, ?_, ?_⟩
        · intro p hp
          rcases this.2.1 p hp with h | ⟨h1, h2⟩
          · exact Or.inl h
          · exact Or.inr ⟨h1, List.mem_cons_of_mem _ h2⟩
        · intro ho p hp he
          exact this.2.2.1 (fun h => ho (List.mem_cons_of_mem _ h)) p hp he
        · intro ho a ha hv hno hm
          rcases List.mem_cons.1 ha with rfl | ha
          · exact absurd ((lookupMain_some ht).1 hl) (hm x)
          · exact this.2.2.2 (fun h => ho (List.mem_cons_of_mem _ h)) a ha hv hno hm
      | none =>
        simp only
        have hn := lookupMain_none.1 hl
        have hi := insertAlias_tables (env := env) (m := orig) (a := b) ht
          (fun x hx => absurd hx (hn x))
        have := ih (s := insertAlias env s orig b) hi.1
        refine ⟨this.1, ?_, ?_, ?_⟩
        · intro p hp
          rcases this.2.1 p hp with h | ⟨h1, h2⟩
          · rcases hi.2.1 p h with h | rfl
            · exact Or.inl h
            · exact Or.inr ⟨rfl, List.mem_cons_self ..⟩
          · exact Or.inr ⟨h1, List.mem_cons_of_mem _ h2⟩
        · intro ho p hp he
          refine this.2.2.1 (fun h => ho (List.mem_cons_of_mem _ h)) p ?_ he
          refine hi.2.2.1 p hp ?_
          rw [he]
          exact fun e => ho (e ▸ List.mem_cons_self ..)
        · intro ho a ha hv hno hm
          have ho' : orig ∉ bs := fun h => ho (List.mem_cons_of_mem _ h)
          by_cases hab : a = b
          · subst hab
            exact this.2.2.1 ho' (a, orig) (hi.2.2.2 hv) rfl
          · rcases List.mem_cons.1 ha with e | ha
            · exact absurd e hab
            · refine this.2.2.2 ho' a ha hv hno ?_
              intro m hx
              rcases hi.2.1 _ hx with h | h
              · exact hm m h
              · rw [Prod.mk.injEq] at h
                exact hab h.1

theorem prune_tables {s : State} (ht : Tables s) {orig : Nat} {listed : List Nat}
    {timedOut : Nat → Bool} :
    Tables (prune s orig listed timedOut) ∧
    ∀ p, p ∈ (prune s orig listed timedOut).rev ↔
      p ∈ s.rev ∧ (p.2 = orig → p.1 ∈ listed ∨ (timedOut p.1 = false ∧ listed ≠ [])) := by
  unfold prune
  cases he : entry s orig with
  | none =>
    refine ⟨ht, fun p => ⟨fun hp => ⟨hp, fun e => ?_⟩, fun hp => hp.1⟩⟩
    obtain ⟨x, h1, h2, _⟩ := (ht.link p.1 p.2).1 hp
    exact absurd (h2.trans e) (entry_none.1 he x h1)
  | some e =>
    simp only
    obtain ⟨he1, he2⟩ := (entry_some ht).1 he
    obtain ⟨g, hg⟩ : ∃ g : Nat → Bool, goes listed timedOut = g := ⟨_, rfl⟩
    simp only [hg]
    have hgoes : ∀ a, g a = false ↔ a ∈ listed ∨ (timedOut a = false ∧ listed ≠ []) := by
      intro a
      rw [← hg]
      simp only [goes, Bool.and_eq_false_iff, Bool.not_eq_false', List.contains_iff_mem,
        Bool.or_eq_false_iff, List.isEmpty_eq_false_iff, ne_eq]
    have hx := mem_erases (m := orig) (e.aliases.filter g) s.rev ht.alis
    have hrev : ∀ p, p ∈ (e.aliases.filter g).foldl (fun r a => r.erase (a, orig)) s.rev ↔
        p ∈ s.rev ∧ (p.2 = orig → g p.1 = false) := by
      intro p
      rw [hx.2 p]
      constructor
      · rintro ⟨h1, h2⟩
        refine ⟨h1, fun hm => ?_⟩
        cases hgp : g p.1 with
        | false => rfl
        | true =>
          exfalso
          obtain ⟨e', he', hm', ha'⟩ := (ht.link p.1 p.2).1 h1
          have : e' = e := by
            have h1 := (entry_some ht).2 ⟨he', hm'.trans hm⟩
            rw [he, Option.some.injEq] at h1
            exact h1.symm
          rw [this] at ha'
          exact h2 ⟨hm, List.mem_filter.2 ⟨ha', hgp⟩⟩
      · rintro ⟨h1, h2⟩
        refine ⟨h1, fun hh => ?_⟩
        have := (List.mem_filter.1 hh.2).2
        rw [h2 hh.1] at this
        cases this
    have hmain : ∀ x : Ent, (if x.main = orig then
        { x with aliases := x.aliases.filter (fun a => !g a) } else x).main = x.main := by
      intro x; split <;> rfl
    refine ⟨⟨?_, hx.1, ?_, ?_⟩, ?_⟩
    · show List.Pairwise _ (s.ents.map _)
      rw [List.pairwise_map]
      refine ht.mains.imp ?_
      intro x y h
      rw [hmain, hmain]; exact h
    · intro b k
      show (b, k) ∈ (e.aliases.filter g).foldl _ s.rev ↔ ∃ x ∈ s.ents.map _, _
      rw [hrev]
      constructor
      · rintro ⟨h1, h2⟩
        obtain ⟨x, hx1, hx2, hx3⟩ := (ht.link b k).1 h1
        refine ⟨_, List.mem_map.2 ⟨x, hx1, rfl⟩, ?_, ?_⟩
        · rw [hmain, hx2]
        · by_cases hm : x.main = orig
          · rw [if_pos hm]
            refine List.mem_filter.2 ⟨hx3, ?_⟩
            have := h2 (hx2.symm.trans hm)
            simp only at this
            rw [this]; rfl
          · rw [if_neg hm]; exact hx3
      · rintro ⟨y, hy, h2, h3⟩
        obtain ⟨x, hx1, rfl⟩ := List.mem_map.1 hy
        rw [hmain] at h2
        by_cases hm : x.main = orig
        · rw [if_pos hm] at h3
          obtain ⟨h4, h5⟩ := List.mem_filter.1 h3
          refine ⟨(ht.link b k).2 ⟨x, hx1, h2, h4⟩, fun _ => ?_⟩
          simpa using h5
        · rw [if_neg hm] at h3
          exact ⟨(ht.link b k).2 ⟨x, hx1, h2, h3⟩, fun hk => absurd (h2.trans hk) hm⟩
    · intro y hy
      obtain ⟨x, hx1, rfl⟩ := List.mem_map.1 hy
      by_cases hm : x.main = orig
      · rw [if_pos hm]
        exact (ht.nodup x hx1).filter _
      · rw [if_neg hm]; exact ht.nodup x hx1
    · intro p
      show p ∈ (e.aliases.filter g).foldl _ s.rev ↔ _
      rw [hrev, hgoes]

theorem same_addLink {s t : State} {r i src : Nat} (h : addLink s r i src = some t) : Same s t := by
  unfold addLink at h
  split at h
  · split at h
    · cases h
    · split at h
      · cases h; exact Same.refl _
      · cases h; exact ⟨rfl, rfl⟩
  · cases h
    have hf : Same s (findNb s src).1 := by
      unfold findNb
      split
      · exact ⟨rfl, rfl⟩
      · exact same_insertNb s src
    exact hf.trans ⟨rfl, rfl⟩

theorem hello_tables {env : Env} {s t : State} {r i src : Nat} (ht : Tables s)
    (h : hello env s r i src = some t) : Tables t := by
  unfold hello at h
  cases ha : addLink s r i src with
  | none => rw [ha] at h; cases h
  | some s1 =>
    rw [ha] at h
    simp only at h
    have ht1 := (same_addLink ha).tables ht
    obtain ⟨s2, hs2⟩ : ∃ s2, (if src ≠ r ∧ env.valid r = true ∧
        (lookupMain s1 r = none ∨ lookupMain s1 r = some src) then insertAlias env s1 src r
        else s1) = s2 := ⟨_, rfl⟩
    rw [hs2] at h
    have ht2 : Tables s2 := by
      rw [← hs2]
      split
      · rename_i hc
        refine (insertAlias_tables ht1 ?_).1
        intro x hx
        rcases hc.2.2 with hc | hc
        · exact absurd hx (lookupMain_none.1 hc x)
        · have := (lookupMain_some ht1).2 hx
          rw [hc, Option.some.injEq] at this
          exact this.symm
      · exact ht1
    split at h
    · cases h
    · split at h
      · cases h
      · cases h; exact ht2

theorem same_deleteLink {s t : State} {r i : Nat} (h : deleteLink s r i = some t) : Same s t := by
  unfold deleteLink at h
  split at h
  · cases h; exact Same.refl _
  · split at h
    · cases h
    · cases h
      split <;> exact ⟨rfl, rfl⟩

theorem step_tables {env : Env} {s t : State} {o : Op} (ht : Tables s) (h : step env s o = some t) :
    Tables t := by
  cases o with
  | hello r i src => exact hello_tables ht h
  | mid orig listed timedOut =>
    unfold step at h
    cases h
    unfold inputMid
    split
    · exact (prune_tables (midLoop_tables listed ht).1).1
    · exact ht
  | dropMid m =>
    unfold step at h
    simp only at h
    split at h
    · rename_i e he
      cases h
      exact (deleteEnt_tables ht ((entry_some ht).1 he).1).1
    · cases h; exact ht
  | dropLink r i => exact (same_deleteLink h).tables ht

theorem init_tables : Tables init :=
  ⟨List.Pairwise.nil, List.Pairwise.nil, fun a m => ⟨fun h => (by cases h),
    fun ⟨_, h, _⟩ => (by cases h)⟩, fun _ h => (by cases h)⟩

end Verif.Mid
