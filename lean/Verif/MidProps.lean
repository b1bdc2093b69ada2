import Verif.MidLemmas
/-!
C40: an interface address resolves to at most one main address, and the aliases listed for a main
address all resolve to it.
C59: every link points at a live neighbour entry that counts its links.
-/
namespace Verif.Mid

/-! ### Specification -/

/-- States reached from the empty tables by events that meet `P`, without reading freed memory. -/
inductive Reach (env : Env) (P : State → Op → Prop) : State → Prop where
  | start : Reach env P init
  | next {s t : State} {o : Op} : Reach env P s → P s o → step env s o = some t → Reach env P t

/-- No restriction. -/
def Any (_ : State) (_ : Op) : Prop := True

/-- C59: the neighbour entry of each link is in the neighbour table, once, and each entry of the
table has as many links as it says, at least one. -/
def Pointers (s : State) : Prop :=
  s.nbs.Pairwise (fun x y => x.ptr ≠ y.ptr) ∧
  (∀ l ∈ s.links, ∃ b ∈ s.nbs, b.ptr = l.nbr) ∧
  (∀ b ∈ s.nbs, 0 < b.count ∧ b.count = (s.links.filter (fun l => l.nbr == b.ptr)).length)

/-- Events that do not touch the main address of a neighbour: a HELLO comes with the main address
the link is known with, which is not an alias of another node, and not from the main address of
another neighbour; a MID message lists no main address of a neighbour. -/
def Plain (s : State) : Op → Prop
  | .hello r i src =>
    (∀ l ∈ s.links, l.remote = r → l.iface = i → ∀ b ∈ s.nbs, b.ptr = l.nbr → b.main = src) ∧
    (∀ m, (src, m) ∉ s.rev) ∧
    (r = src ∨ ∀ b ∈ s.nbs, b.main ≠ r)
  | .mid _ listed _ => ∀ a ∈ listed, ∀ b ∈ s.nbs, b.main ≠ a
  | _ => True

/-- No link is deleted, and no MID message lists its own originator as an alias. -/
def NoDrop (_ : State) : Op → Prop
  | .dropLink _ _ => False
  | .mid orig listed _ => orig ∉ listed
  | _ => True

/-! ### C40 -/

private theorem reach_tables {env : Env} {P : State → Op → Prop} {s : State} (h : Reach env P s) :
    Tables s := by
  induction h with
  | start => exact init_tables
  | next _ _ hs ih => exact step_tables ih hs

/-- C40 for every sequence of HELLOs, MID messages and expiries: an address resolves to `m` exactly
if it is among the aliases listed for `m`; no alias is listed twice; and there is one entry per main
address and one per alias. -/
theorem C40_resolution {env : Env} {s : State} (h : Reach env Any s) :
    (∀ a m, lookupMain s a = some m ↔ a ∈ lookupAliases s m) ∧
    (∀ m, (lookupAliases s m).Nodup) ∧
    (s.ents.map (fun e => e.main)).Nodup ∧ (s.rev.map (fun p => p.1)).Nodup := by
  have ht := reach_tables h
  refine ⟨fun a m => ?_, fun m => ?_, ?_, ?_⟩
  · rw [lookupMain_some ht, mem_aliases ht]
  · unfold lookupAliases
    split
    · rename_i e he
      exact ht.nodup e ((entry_some ht).1 he).1
    · exact List.Pairwise.nil
  · exact List.pairwise_map.2 ht.mains
  · exact List.pairwise_map.2 ht.alis

/-- A MID message registers the aliases that were not known before, unless they are ours or denied,
provided that it does not list its originator as an alias of itself. -/
theorem C40_mid_registers {env : Env} {s t : State} (h : Reach env Any s) {orig : Nat}
    {listed : List Nat} {timedOut : Nat → Bool} (ho : env.valid orig = true) (hn : orig ∉ listed)
    (ht : step env s (.mid orig listed timedOut) = some t) {a : Nat} (ha : a ∈ listed)
    (hv : env.valid a = true) (hown : a ∉ env.own) (hnew : lookupMain s a = none) :
    lookupMain t a = some orig := by
  have hts := reach_tables h
  have htt := step_tables hts ht
  unfold step at ht
  cases ht
  rw [lookupMain_some htt]
  unfold inputMid
  rw [if_pos ho]
  have hl := midLoop_tables (env := env) (orig := orig) listed hts
  refine ((prune_tables hl.1).2 _).2 ⟨?_, fun _ => Or.inl ha⟩
  exact hl.2.2.2 hn a ha hv hown (lookupMain_none.1 hnew)

/-- After a MID message the aliases of its originator are those it lists and those whose own time
is not up; a message without aliases leaves none. -/
theorem C40_mid_prunes {env : Env} {s t : State} (h : Reach env Any s) {orig : Nat}
    {listed : List Nat} {timedOut : Nat → Bool} (ho : env.valid orig = true)
    (ht : step env s (.mid orig listed timedOut) = some t) {a : Nat}
    (ha : a ∈ lookupAliases t orig) :
    a ∈ listed ∨ (a ∈ lookupAliases s orig ∧ timedOut a = false ∧ listed ≠ []) := by
  have hts := reach_tables h
  have htt := step_tables hts ht
  rw [mem_aliases htt] at ha
  rw [mem_aliases hts]
  unfold step at ht
  cases ht
  unfold inputMid at ha
  rw [if_pos ho] at ha
  have hl := midLoop_tables (env := env) (orig := orig) listed hts
  obtain ⟨h1, h2⟩ := ((prune_tables hl.1).2 _).1 ha
  rcases h2 rfl with h2 | h2
  · exact Or.inl h2
  · rcases hl.2.1 _ h1 with h3 | h3
    · exact Or.inr ⟨h3, h2⟩
    · exact Or.inl h3.2

/-- A MID message does not change the resolution of addresses to other nodes, except that it may
forget all aliases of a node whose main address it lists as an alias. -/
theorem C40_mid_others {env : Env} {s t : State} (h : Reach env Any s) {orig : Nat}
    {listed : List Nat} {timedOut : Nat → Bool}
    (ht : step env s (.mid orig listed timedOut) = some t) {a m : Nat} (hm : m ≠ orig)
    (ha : lookupMain t a = some m) : lookupMain s a = some m := by
  have hts := reach_tables h
  have htt := step_tables hts ht
  rw [lookupMain_some htt] at ha
  rw [lookupMain_some hts]
  unfold step at ht
  cases ht
  unfold inputMid at ha
  split at ha
  · have hl := midLoop_tables (env := env) (orig := orig) listed hts
    obtain ⟨h1, _⟩ := ((prune_tables hl.1).2 _).1 ha
    rcases hl.2.1 _ h1 with h3 | h3
    · exact h3
    · exact absurd h3.1 hm
  · exact ha

/-! ### C59: lemmas -/

/-- Invariant for the plain events. -/
private structure Good (s : State) : Prop where
  ptrs : s.nbs.Pairwise (fun x y => x.ptr ≠ y.ptr)
  mains : s.nbs.Pairwise (fun x y => x.main ≠ y.main)
  fresh : ∀ b ∈ s.nbs, b.ptr < s.fresh
  live : ∀ l ∈ s.links, ∃ b ∈ s.nbs, b.ptr = l.nbr
  keys : s.links.Pairwise (fun x y => ¬ (x.remote = y.remote ∧ x.iface = y.iface))
  cnt : ∀ b ∈ s.nbs, 0 < b.count ∧ b.count = (s.links.filter (fun l => l.nbr == b.ptr)).length
  ali : ∀ p ∈ s.rev, ∀ b ∈ s.nbs, b.main ≠ p.1

private theorem nbOf_none {s : State} {a : Nat} : nbOf s a = none ↔ ∀ b ∈ s.nbs, b.main ≠ a := by
  unfold nbOf
  rw [List.find?_eq_none]
  simp only [beq_iff_eq, ne_eq]

private theorem nbOf_some {s : State} {a : Nat} {b : Nb} (h : nbOf s a = some b) :
    b ∈ s.nbs ∧ b.main = a :=
  ⟨List.mem_of_find?_eq_some h, by simpa using List.find?_some h⟩

private theorem deref_some {s : State} {p : Nat} {b : Nb} (h : deref s p = some b) :
    b ∈ s.nbs ∧ b.ptr = p :=
  ⟨List.mem_of_find?_eq_some h, by simpa using List.find?_some h⟩

private theorem deref_isSome {s : State} {p : Nat} (h : ∃ b ∈ s.nbs, b.ptr = p) :
    ∃ b, deref s p = some b := by
  obtain ⟨b, h1, h2⟩ := h
  cases hd : deref s p with
  | some c => exact ⟨c, rfl⟩
  | none =>
    unfold deref at hd
    rw [List.find?_eq_none] at hd
    exact absurd (beq_iff_eq.2 h2) (hd b h1)

private theorem link_some {s : State} {r i : Nat} {l : Lk} (h : lookupLink s r i = some l) :
    l ∈ s.links ∧ l.remote = r ∧ l.iface = i := by
  unfold lookupLink at h
  have h2 := List.find?_some h
  simp only [Bool.and_eq_true, beq_iff_eq] at h2
  exact ⟨List.mem_of_find?_eq_some h, h2⟩

private theorem link_none {s : State} {r i : Nat} (h : lookupLink s r i = none) :
    ∀ l ∈ s.links, ¬ (l.remote = r ∧ l.iface = i) := by
  unfold lookupLink at h
  rw [List.find?_eq_none] at h
  intro l hl hk
  exact h l hl (by simp only [Bool.and_eq_true, beq_iff_eq]; exact hk)

private theorem ptr_inj {s : State} (h : s.nbs.Pairwise (fun x y => x.ptr ≠ y.ptr)) {a b : Nb}
    (ha : a ∈ s.nbs) (hb : b ∈ s.nbs) (he : a.ptr = b.ptr) : a = b := by
  generalize s.nbs = l at h ha hb
  induction l with
  | nil => cases ha
  | cons x xs ih =>
    rw [List.pairwise_cons] at h
    rcases List.mem_cons.1 ha with rfl | ha'
    · rcases List.mem_cons.1 hb with rfl | hb'
      · rfl
      · exact absurd he (h.1 b hb')
    · rcases List.mem_cons.1 hb with rfl | hb'
      · exact absurd he.symm (h.1 a ha')
      · exact ih h.2 ha' hb'

private theorem main_inj {s : State} (h : s.nbs.Pairwise (fun x y => x.main ≠ y.main)) {a b : Nb}
    (ha : a ∈ s.nbs) (hb : b ∈ s.nbs) (he : a.main = b.main) : a = b := by
  generalize s.nbs = l at h ha hb
  induction l with
  | nil => cases ha
  | cons x xs ih =>
    rw [List.pairwise_cons] at h
    rcases List.mem_cons.1 ha with rfl | ha'
    · rcases List.mem_cons.1 hb with rfl | hb'
      · rfl
      · exact absurd he (h.1 b hb')
    · rcases List.mem_cons.1 hb with rfl | hb'
      · exact absurd he.symm (h.1 a ha')
      · exact ih h.2 ha' hb'

/-- The clean-up loop does nothing if no alias is the main address of a neighbour. -/
private theorem dedups_id (m : Nat) : ∀ (ts : List Nat) (s : State),
    (∀ t ∈ ts, ∀ b ∈ s.nbs, b.main ≠ t) → ts.foldl (dedupNb m) s = s := by
  intro ts
  induction ts with
  | nil => intro s _; rfl
  | cons t ts ih =>
    intro s h
    have h1 : dedupNb m s t = s := by
      unfold dedupNb
      rw [nbOf_none.2 (h t (List.mem_cons_self ..))]
    rw [List.foldl_cons, h1]
    exact ih s (fun x hx => h x (List.mem_cons_of_mem _ hx))

private theorem addAlias_nbs (s : State) (m a : Nat) :
    (addAlias s m a).nbs = s.nbs ∧ (addAlias s m a).links = s.links ∧
      (addAlias s m a).fresh = s.fresh := by
  unfold addAlias
  split <;> exact ⟨rfl, rfl, rfl⟩

/-- A new alias that is no neighbour's main address leaves links and neighbours alone. -/
private theorem insertAlias_good {env : Env} {s : State} (ht : Tables s) (hg : Good s) {m a : Nat}
    (ha : ∀ b ∈ s.nbs, b.main ≠ a) (hr : ∀ x, (a, x) ∈ s.rev → x = m) :
    Good (insertAlias env s m a) ∧ (insertAlias env s m a).nbs = s.nbs ∧
      (insertAlias env s m a).links = s.links := by
  have hti := insertAlias_tables (env := env) ht hr
  have hsame : (insertAlias env s m a).nbs = s.nbs ∧ (insertAlias env s m a).links = s.links ∧
      (insertAlias env s m a).fresh = s.fresh := by
    unfold insertAlias
    split
    · rw [nbOf_none.2 ha]
      simp only
      unfold insertTuple
      split
      · exact ⟨rfl, rfl, rfl⟩
      · have hn := addAlias_nbs s m a
        rw [dedups_id]
        · exact hn
        · intro t htm b hb
          rw [hn.1] at hb
          rcases List.mem_cons.1 htm with rfl | htm
          · exact ha b hb
          · exact hg.ali (t, m) ((mem_aliases ht).1 htm) b hb
    · exact ⟨rfl, rfl, rfl⟩
  obtain ⟨h1, h2, h3⟩ := hsame
  refine ⟨⟨?_, ?_, ?_, ?_, ?_, ?_, ?_⟩, h1, h2⟩
  · rw [h1]; exact hg.ptrs
  · rw [h1]; exact hg.mains
  · rw [h1, h3]; exact hg.fresh
  · rw [h1, h2]; exact hg.live
  · rw [h2]; exact hg.keys
  · rw [h1, h2]; exact hg.cnt
  · rw [h1]
    intro p hp b hb
    rcases hti.2.1 p hp with hp | rfl
    · exact hg.ali p hp b hb
    · exact ha b hb

private theorem midLoop_good {env : Env} {orig : Nat} : ∀ (as : List Nat) {s : State}, Tables s →
    Good s → (∀ a ∈ as, ∀ b ∈ s.nbs, b.main ≠ a) → Good (midLoop env orig s as) := by
  intro as
  induction as with
  | nil => intro s _ hg _; exact hg
  | cons a as ih =>
    intro s ht hg h
    have h' : ∀ x ∈ as, ∀ b ∈ s.nbs, b.main ≠ x := fun x hx => h x (List.mem_cons_of_mem _ hx)
    unfold midLoop
    split
    · exact ih ht hg h'
    · cases hl : lookupMain s a with
      | some x => exact ih ht hg h'
      | none =>
        simp only
        have hr : ∀ x, (a, x) ∈ s.rev → x = orig := fun x hx =>
          absurd hx (lookupMain_none.1 hl x)
        have hi := insertAlias_good (env := env) (m := orig) ht hg
          (h a (List.mem_cons_self ..)) hr
        exact ih (insertAlias_tables ht hr).1 hi.1 (by rw [hi.2.1]; exact h')

private theorem prune_good {s : State} (ht : Tables s) (hg : Good s) {orig : Nat}
    {listed : List Nat} {timedOut : Nat → Bool} : Good (prune s orig listed timedOut) := by
  have hp := (prune_tables (orig := orig) (listed := listed) (timedOut := timedOut) ht).2
  have hsame : (prune s orig listed timedOut).nbs = s.nbs ∧
      (prune s orig listed timedOut).links = s.links ∧
      (prune s orig listed timedOut).fresh = s.fresh := by
    unfold prune
    split <;> exact ⟨rfl, rfl, rfl⟩
  obtain ⟨h1, h2, h3⟩ := hsame
  refine ⟨?_, ?_, ?_, ?_, ?_, ?_, ?_⟩
  · rw [h1]; exact hg.ptrs
  · rw [h1]; exact hg.mains
  · rw [h1, h3]; exact hg.fresh
  · rw [h1, h2]; exact hg.live
  · rw [h2]; exact hg.keys
  · rw [h1, h2]; exact hg.cnt
  · rw [h1]
    intro p hpp
    exact hg.ali p ((hp p).1 hpp).1

/-- Links and neighbours after a new link was added. -/
private theorem addLink_good {s : State} (hg : Good s) {r i src : Nat}
    (hsrc : ∀ m, (src, m) ∉ s.rev)
    (hk : ∀ l ∈ s.links, l.remote = r → l.iface = i → ∀ b ∈ s.nbs, b.ptr = l.nbr → b.main = src) :
    ∃ t, addLink s r i src = some t ∧ Good t ∧ Same s t ∧
      (∀ b ∈ t.nbs, b.main = src ∨ ∃ c ∈ s.nbs, c.main = b.main) ∧
      ∃ l ∈ t.links, l.remote = r ∧ l.iface = i := by
  unfold addLink
  cases hl : lookupLink s r i with
  | some l =>
    simp only
    have hl' := link_some hl
    obtain ⟨b, hb⟩ := deref_isSome (hg.live l hl'.1)
    rw [hb]
    simp only
    have hb' := deref_some hb
    rw [if_pos (hk l hl'.1 hl'.2.1 hl'.2.2 b hb'.1 hb'.2)]
    exact ⟨s, rfl, hg, Same.refl s, fun c hc => Or.inr ⟨c, hc, rfl⟩, l, hl'⟩
  | none =>
    simp only
    have hmain : lookupMain s src = none := lookupMain_none.2 hsrc
    have hnb : nbOfAny s src = nbOf s src := by unfold nbOfAny; rw [hmain]
    -- the neighbour table with the entry found or inserted, counting one less
    obtain ⟨q, hq⟩ : ∃ q : State × Nat, findNb s src = q := ⟨_, rfl⟩
    rw [hq]
    have hprop : (∃ b ∈ q.1.nbs, b.ptr = q.2 ∧ b.main = src ∧
          b.count = (s.links.filter (fun l => l.nbr == b.ptr)).length) ∧
        q.1.nbs.Pairwise (fun x y => x.ptr ≠ y.ptr) ∧
        q.1.nbs.Pairwise (fun x y => x.main ≠ y.main) ∧
        (∀ b ∈ q.1.nbs, b.ptr < q.1.fresh) ∧
        (∀ b ∈ q.1.nbs, b.ptr ≠ q.2 → b ∈ s.nbs) ∧
        (∀ b ∈ s.nbs, b ∈ q.1.nbs) ∧ q.1.links = s.links ∧ Same s q.1 := by
      rw [← hq]
      unfold findNb
      rw [hnb]
      cases hn : nbOf s src with
      | some b =>
        have hb := nbOf_some hn
        exact ⟨⟨b, hb.1, rfl, hb.2, (hg.cnt b hb.1).2⟩, hg.ptrs, hg.mains, hg.fresh,
          fun c hc _ => hc, fun c hc => hc, rfl, Same.refl s⟩
      | none =>
        simp only
        have hno := nbOf_none.1 hn
        unfold insertNb
        rw [hn]
        refine ⟨⟨_, List.mem_cons_self .., rfl, rfl, ?_⟩, ?_, ?_, ?_, ?_, ?_, rfl, ⟨rfl, rfl⟩⟩
        · show (0 : Int) = _
          have : s.links.filter (fun l => l.nbr == s.fresh) = [] := by
            rw [List.filter_eq_nil_iff]
            intro l hl hlf
            obtain ⟨b, hb1, hb2⟩ := hg.live l hl
            have := hg.fresh b hb1
            rw [beq_iff_eq] at hlf
            omega
          rw [this]; rfl
        · show List.Pairwise _ (_ :: s.nbs)
          rw [List.pairwise_cons]
          refine ⟨fun c hc => ?_, hg.ptrs⟩
          have := hg.fresh c hc
          show s.fresh ≠ c.ptr
          omega
        · show List.Pairwise _ (_ :: s.nbs)
          rw [List.pairwise_cons]
          exact ⟨fun c hc e => hno c hc e.symm, hg.mains⟩
        · intro c hc
          show c.ptr < s.fresh + 1
          rcases List.mem_cons.1 hc with rfl | hc
          · exact Nat.lt_succ_self _
          · exact Nat.lt_succ_of_lt (hg.fresh c hc)
        · intro c hc hne
          rcases List.mem_cons.1 hc with rfl | hc
          · exact absurd rfl hne
          · exact hc
        · exact fun c hc => List.mem_cons_of_mem _ hc
    obtain ⟨⟨b, hb1, hb2, hb3, hb4⟩, hp1, hp2, hp3, hp4, hp5, hp6, hp7⟩ := hprop
    have hptr : ∀ x : Nb, (if x.ptr = q.2 then { x with count := x.count + 1 } else x).ptr = x.ptr ∧
        (if x.ptr = q.2 then { x with count := x.count + 1 } else x).main = x.main := by
      intro x; split <;> exact ⟨rfl, rfl⟩
    refine ⟨_, rfl, ⟨?_, ?_, ?_, ?_, ?_, ?_, ?_⟩, ⟨hp7.1, hp7.2⟩, ?_, ?_⟩
    · show List.Pairwise _ (q.1.nbs.map _)
      rw [List.pairwise_map]
      refine hp1.imp ?_
      intro x y h
      rw [(hptr x).1, (hptr y).1]; exact h
    · show List.Pairwise _ (q.1.nbs.map _)
      rw [List.pairwise_map]
      refine hp2.imp ?_
      intro x y h
      rw [(hptr x).2, (hptr y).2]; exact h
    · intro c hc
      obtain ⟨x, hx, rfl⟩ := List.mem_map.1 hc
      rw [(hptr x).1]; exact hp3 x hx
    · intro l hl
      have hl : l ∈ q.1.links ++ [_] := hl
      rw [hp6] at hl
      rcases List.mem_append.1 hl with hl | hl
      · obtain ⟨c, hc, he⟩ := hg.live l hl
        exact ⟨_, List.mem_map.2 ⟨c, hp5 c hc, rfl⟩, (hptr c).1.trans he⟩
      · rw [List.mem_singleton] at hl
        subst hl
        exact ⟨_, List.mem_map.2 ⟨b, hb1, rfl⟩, (hptr b).1.trans hb2⟩
    · show List.Pairwise _ (q.1.links ++ [_])
      rw [hp6, List.pairwise_append]
      refine ⟨hg.keys, List.pairwise_singleton _ _, ?_⟩
      intro x hx y hy
      rw [List.mem_singleton] at hy
      subst hy
      exact link_none hl x hx
    · intro c hc
      obtain ⟨x, hx, rfl⟩ := List.mem_map.1 hc
      show _ ∧ _ = (((q.1.links ++ [_]).filter _).length : Int)
      rw [hp6, List.filter_append, List.length_append, (hptr x).1]
      by_cases hxp : x.ptr = q.2
      · have hxb : x = b := ptr_inj (s := q.1) hp1 hx hb1 (hxp.trans hb2.symm)
        rw [if_pos hxp]
        subst hxb
        have : ([({ remote := r, iface := i, nbr := q.2 } : Lk)].filter
            (fun l => l.nbr == x.ptr)).length = 1 := by
          rw [List.filter_cons]
          simp only [hb2, beq_self_eq_true, if_true, List.filter_nil, List.length_singleton]
        rw [this]
        show 0 < x.count + 1 ∧ x.count + 1 = _
        rw [hb4]
        omega
      · rw [if_neg hxp]
        have hxs := hp4 x hx hxp
        have : ([({ remote := r, iface := i, nbr := q.2 } : Lk)].filter
            (fun l => l.nbr == x.ptr)).length = 0 := by
          rw [List.filter_cons]
          have : (q.2 == x.ptr) = false := beq_eq_false_iff_ne.2 (fun e => hxp e.symm)
          simp only [this, Bool.false_eq_true, if_false, List.filter_nil, List.length_nil]
        rw [this]
        have := hg.cnt x hxs
        omega
    · intro p hp c hc
      have hp : p ∈ s.rev := by rw [← hp7.2]; exact hp
      obtain ⟨x, hx, rfl⟩ := List.mem_map.1 hc
      rw [(hptr x).2]
      by_cases hxp : x.ptr = q.2
      · have hxb : x = b := ptr_inj (s := q.1) hp1 hx hb1 (hxp.trans hb2.symm)
        rw [hxb, hb3]
        intro e
        apply hsrc p.2
        rw [e]; exact hp
      · exact hg.ali p hp x (hp4 x hx hxp)
    · intro c hc
      obtain ⟨x, hx, rfl⟩ := List.mem_map.1 hc
      rw [(hptr x).2]
      by_cases hxp : x.ptr = q.2
      · have hxb : x = b := ptr_inj (s := q.1) hp1 hx hb1 (hxp.trans hb2.symm)
        exact Or.inl (hxb ▸ hb3)
      · exact Or.inr ⟨x, hp4 x hx hxp, rfl⟩
    · exact ⟨_, List.mem_append_right _ (List.mem_singleton.2 rfl), rfl, rfl⟩

private theorem hello_good {env : Env} {s : State} (ht : Tables s) (hg : Good s) {r i src : Nat}
    (hp : Plain s (.hello r i src)) : ∃ t, hello env s r i src = some t ∧ Good t := by
  obtain ⟨hp1, hp2, hp3⟩ := hp
  obtain ⟨s1, ha, hg1, hs1, hm1, l, hl1, hl2⟩ := addLink_good hg hp2 hp1
  have ht1 := hs1.tables ht
  unfold hello
  rw [ha]
  simp only
  obtain ⟨s2, hs2⟩ : ∃ s2, (if src ≠ r ∧ env.valid r = true ∧
      (lookupMain s1 r = none ∨ lookupMain s1 r = some src) then insertAlias env s1 src r
      else s1) = s2 := ⟨_, rfl⟩
  rw [hs2]
  have h2 : Good s2 ∧ s2.links = s1.links := by
    rw [← hs2]
    split
    · rename_i hc
      have hnr : ∀ b ∈ s1.nbs, b.main ≠ r := by
        intro b hb e
        rcases hp3 with h | h
        · exact hc.1 h.symm
        · rcases hm1 b hb with h2 | ⟨c, hc1, hc2⟩
          · exact hc.1 (h2.symm.trans e)
          · exact h c hc1 (hc2.trans e)
      have := insertAlias_good (env := env) (m := src) (a := r) ht1 hg1 hnr (by
        intro x hx
        rcases hc.2.2 with hc | hc
        · exact absurd hx (lookupMain_none.1 hc x)
        · have := (lookupMain_some ht1).2 hx
          rw [hc, Option.some.injEq] at this
          exact this.symm)
      exact ⟨this.1, this.2.2⟩
    · exact ⟨hg1, rfl⟩
  cases hk : lookupLink s2 r i with
  | none =>
    exact absurd hl2 (link_none hk l (by rw [h2.2]; exact hl1))
  | some k =>
    simp only
    obtain ⟨b, hb⟩ := deref_isSome (h2.1.live k (link_some hk).1)
    rw [hb]
    exact ⟨s2, rfl, h2.1⟩

private theorem filter_key_length {ls : List Lk} {p : Nat}
    (hk : ls.Pairwise (fun x y => ¬ (x.remote = y.remote ∧ x.iface = y.iface))) {l : Lk}
    (hl : l ∈ ls) :
    (ls.filter (fun x => x.nbr == p)).length =
      ((ls.filter (fun x => !(x.remote == l.remote && x.iface == l.iface))).filter
        (fun x => x.nbr == p)).length + (if l.nbr = p then 1 else 0) := by
  induction ls with
  | nil => cases hl
  | cons x xs ih =>
    rw [List.pairwise_cons] at hk
    rcases List.mem_cons.1 hl with rfl | hl'
    · have hall : xs.filter (fun x => !(x.remote == l.remote && x.iface == l.iface)) = xs := by
        apply List.filter_eq_self.2
        intro y hy
        have := hk.1 y hy
        simp only [Bool.not_eq_true', Bool.and_eq_false_iff, beq_eq_false_iff_ne, ne_eq]
        by_cases e : y.remote = l.remote
        · exact Or.inr (fun e2 => this ⟨e.symm, e2.symm⟩)
        · exact Or.inl e
      rw [List.filter_cons (p := fun x : Lk => !(x.remote == l.remote && x.iface == l.iface))]
      simp only [beq_self_eq_true, Bool.and_self, Bool.not_true, Bool.false_eq_true, if_false]
      rw [hall, List.filter_cons]
      by_cases hp : l.nbr = p
      · rw [if_pos (beq_iff_eq.2 hp), if_pos hp]; rfl
      · rw [if_neg (fun h => hp (beq_iff_eq.1 h)), if_neg hp]; rfl
    · have hne : ¬ (x.remote = l.remote ∧ x.iface = l.iface) := fun e => hk.1 l hl' e
      have hb : (!(x.remote == l.remote && x.iface == l.iface)) = true := by
        simp only [Bool.not_eq_true', Bool.and_eq_false_iff, beq_eq_false_iff_ne, ne_eq]
        by_cases e : x.remote = l.remote
        · exact Or.inr (fun e2 => hne ⟨e, e2⟩)
        · exact Or.inl e
      rw [List.filter_cons (p := fun x : Lk => !(x.remote == l.remote && x.iface == l.iface)), if_pos hb,
        List.filter_cons, List.filter_cons]
      have := ih hk.2 hl'
      by_cases hp : (x.nbr == p) = true
      · rw [if_pos hp, if_pos hp, List.length_cons, List.length_cons, this]; omega
      · rw [if_neg hp, if_neg hp, this]

private theorem mem_eraseP_main {l : List Nb} (h : l.Pairwise (fun x y => x.main ≠ y.main))
    {m : Nat} (hm : ∃ b ∈ l, b.main = m) (x : Nb) :
    x ∈ l.eraseP (fun b => b.main == m) ↔ x ∈ l ∧ x.main ≠ m := by
  induction l with
  | nil => obtain ⟨b, hb, _⟩ := hm; cases hb
  | cons y ys ih =>
    rw [List.pairwise_cons] at h
    by_cases hy : y.main = m
    · rw [List.eraseP_cons, cond_eq_ite, if_pos (beq_iff_eq.2 hy)]
      constructor
      · intro hx
        exact ⟨List.mem_cons_of_mem _ hx, fun e => h.1 x hx (hy.trans e.symm)⟩
      · rintro ⟨hx, hne⟩
        rcases List.mem_cons.1 hx with rfl | hx
        · exact absurd hy hne
        · exact hx
    · rw [List.eraseP_cons, cond_eq_ite, if_neg (fun e => hy (beq_iff_eq.1 e)), List.mem_cons, List.mem_cons]
      have hm' : ∃ b ∈ ys, b.main = m := by
        obtain ⟨b, hb, he⟩ := hm
        rcases List.mem_cons.1 hb with rfl | hb
        · exact absurd he hy
        · exact ⟨b, hb, he⟩
      rw [ih h.2 hm']
      constructor
      · rintro (rfl | ⟨h1, h2⟩)
        · exact ⟨Or.inl rfl, hy⟩
        · exact ⟨Or.inr h1, h2⟩
      · rintro ⟨rfl | h1, h2⟩
        · exact Or.inl rfl
        · exact Or.inr ⟨h1, h2⟩

private theorem deleteLink_good {s : State} (hg : Good s) {r i : Nat} :
    ∃ t, deleteLink s r i = some t ∧ Good t := by
  unfold deleteLink
  cases hl : lookupLink s r i with
  | none => exact ⟨s, rfl, hg⟩
  | some l =>
    simp only
    have hl' := link_some hl
    obtain ⟨b, hb⟩ := deref_isSome (hg.live l hl'.1)
    rw [hb]
    simp only
    have hb' := deref_some hb
    have hcnt : ∀ p, (s.links.filter (fun x => x.nbr == p)).length =
        ((s.links.filter (fun x => !(x.remote == r && x.iface == i))).filter
          (fun x => x.nbr == p)).length + (if l.nbr = p then 1 else 0) := by
      intro p
      have := filter_key_length (p := p) hg.keys hl'.1
      rw [hl'.2.1, hl'.2.2] at this
      exact this
    have hmem : ∀ x, x ∈ s.links.filter (fun x => !(x.remote == r && x.iface == i)) → x ∈ s.links :=
      fun x hx => (List.mem_filter.1 hx).1
    by_cases hc : b.count = 1
    · refine ⟨_, rfl, ?_⟩
      simp only [if_pos hc]
      have hme := mem_eraseP_main hg.mains (m := b.main) ⟨b, hb'.1, rfl⟩
      have hne : ∀ x ∈ s.nbs, x.main ≠ b.main → x.ptr ≠ b.ptr := fun x hx h e =>
        h (by rw [ptr_inj hg.ptrs hx hb'.1 e])
      have hno : ((s.links.filter (fun x => !(x.remote == r && x.iface == i))).filter
          (fun x => x.nbr == b.ptr)).length = 0 := by
        have h1 := hcnt b.ptr
        rw [if_pos hb'.2.symm] at h1
        have h2 := (hg.cnt b hb'.1).2
        omega
      refine ⟨?_, ?_, ?_, ?_, hg.keys.filter _, ?_, ?_⟩
      · exact hg.ptrs.sublist List.eraseP_sublist
      · exact hg.mains.sublist List.eraseP_sublist
      · intro x hx; exact hg.fresh x ((hme x).1 hx).1
      · intro x hx
        have hx : x ∈ s.links.filter (fun x => !(x.remote == r && x.iface == i)) := hx
        obtain ⟨c, hc1, hc2⟩ := hg.live x (hmem x hx)
        refine ⟨c, (hme c).2 ⟨hc1, fun e => ?_⟩, hc2⟩
        have hcb := main_inj hg.mains hc1 hb'.1 e
        have : x ∈ (s.links.filter (fun x => !(x.remote == r && x.iface == i))).filter
            (fun x => x.nbr == b.ptr) :=
          List.mem_filter.2 ⟨hx, beq_iff_eq.2 (by rw [← hc2, hcb])⟩
        rw [List.length_eq_zero_iff.1 hno] at this
        cases this
      · intro x hx
        obtain ⟨hx1, hx2⟩ := (hme x).1 hx
        have h1 := hcnt x.ptr
        rw [if_neg (fun e => hne x hx1 hx2 (e.symm.trans hb'.2.symm))] at h1
        have h2 := hg.cnt x hx1
        show 0 < x.count ∧ x.count = (((s.links.filter _).filter _).length : Int)
        omega
      · intro p hp x hx
        exact hg.ali p hp x ((hme x).1 hx).1
    · refine ⟨_, rfl, ?_⟩
      simp only [if_neg hc]
      have hptr : ∀ x : Nb, (if x.ptr = b.ptr then { x with count := x.count - 1 } else x).ptr =
          x.ptr ∧ (if x.ptr = b.ptr then { x with count := x.count - 1 } else x).main = x.main := by
        intro x; split <;> exact ⟨rfl, rfl⟩
      refine ⟨?_, ?_, ?_, ?_, hg.keys.filter _, ?_, ?_⟩
      · show List.Pairwise _ (s.nbs.map _)
        rw [List.pairwise_map]
        refine hg.ptrs.imp ?_
        intro x y h
        rw [(hptr x).1, (hptr y).1]; exact h
      · show List.Pairwise _ (s.nbs.map _)
        rw [List.pairwise_map]
        refine hg.mains.imp ?_
        intro x y h
        rw [(hptr x).2, (hptr y).2]; exact h
      · intro c hc
        obtain ⟨x, hx, rfl⟩ := List.mem_map.1 hc
        rw [(hptr x).1]; exact hg.fresh x hx
      · intro x hx
        obtain ⟨c, hc1, hc2⟩ := hg.live x (hmem x hx)
        exact ⟨_, List.mem_map.2 ⟨c, hc1, rfl⟩, (hptr c).1.trans hc2⟩
      · intro c hcc
        obtain ⟨x, hx, rfl⟩ := List.mem_map.1 hcc
        show _ ∧ _ = (((s.links.filter _).filter _).length : Int)
        rw [(hptr x).1]
        have h1 := hcnt x.ptr
        have h2 := hg.cnt x hx
        by_cases hxp : x.ptr = b.ptr
        · rw [if_pos (hb'.2.symm.trans hxp.symm)] at h1
          have hxb := ptr_inj hg.ptrs hx hb'.1 hxp
          rw [if_pos hxp]
          show 0 < x.count - 1 ∧ x.count - 1 = _
          rw [← hxb] at hc
          omega
        · rw [if_neg (fun e => hxp (e.symm.trans hb'.2.symm))] at h1
          rw [if_neg hxp]
          omega
      · intro p hp c hcc
        obtain ⟨x, hx, rfl⟩ := List.mem_map.1 hcc
        rw [(hptr x).2]
        exact hg.ali p hp x hx

private theorem deleteEnt_good {s : State} (ht : Tables s) (hg : Good s) {e : Ent}
    (he : e ∈ s.ents) : Good (deleteEnt s e) :=
  ⟨hg.ptrs, hg.mains, hg.fresh, hg.live, hg.keys, hg.cnt,
    fun p hp => hg.ali p (((deleteEnt_tables ht he).2 p).1 hp).1⟩

private theorem step_good {env : Env} {s : State} (ht : Tables s) (hg : Good s) {o : Op}
    (hp : Plain s o) : ∃ t, step env s o = some t ∧ Good t := by
  cases o with
  | hello r i src => exact hello_good ht hg hp
  | mid orig listed timedOut =>
    refine ⟨_, rfl, ?_⟩
    unfold inputMid
    split
    · exact prune_good (midLoop_tables listed ht).1 (midLoop_good listed ht hg hp)
    · exact hg
  | dropMid m =>
    unfold step
    simp only
    cases he : entry s m with
    | some e => exact ⟨_, rfl, deleteEnt_good ht hg ((entry_some ht).1 he).1⟩
    | none => exact ⟨_, rfl, hg⟩
  | dropLink r i => exact deleteLink_good hg

private theorem reach_good {env : Env} {s : State} (h : Reach env Plain s) : Good s := by
  induction h with
  | start =>
    exact ⟨List.Pairwise.nil, List.Pairwise.nil, (fun _ h => (by cases h)),
      (fun _ h => (by cases h)), List.Pairwise.nil, (fun _ h => (by cases h)),
      (fun _ h => (by cases h))⟩
  | next hr hp hs ih =>
    obtain ⟨t, h1, h2⟩ := step_good (env := env) (reach_tables hr) ih hp
    rw [hs, Option.some.injEq] at h1
    rw [h1]; exact h2

/-! ### C59 -/

/-- C59 for events that do not touch the main address of a neighbour: all links point at live
entries with the right count, and no event of that kind reads a freed entry.

Full statement: the same for `Any` in place of `Plain`.  It fails: `C59_self_alias_reads_freed`,
`C59_moved_address_reads_freed`, `C59_merge_reads_freed`, `C59_neighbour_without_links`. -/
theorem C59_pointers_partial {env : Env} {s : State} (h : Reach env Plain s) :
    Pointers s ∧ ∀ o, Plain s o → step env s o ≠ none := by
  have hg := reach_good h
  refine ⟨⟨hg.ptrs, hg.live, hg.cnt⟩, fun o hp hn => ?_⟩
  obtain ⟨t, h1, _⟩ := step_good (env := env) (reach_tables h) hg hp
  rw [hn] at h1
  cases h1

/-- Invariant while no link is deleted. -/
private structure Live (s : State) : Prop where
  ptrs : s.nbs.Pairwise (fun x y => x.ptr ≠ y.ptr)
  fresh : ∀ b ∈ s.nbs, b.ptr < s.fresh
  live : ∀ l ∈ s.links, ∃ b ∈ s.nbs, b.ptr = l.nbr
  self : ∀ p ∈ s.rev, p.1 ≠ p.2

private theorem mem_eraseP_ptr {l : List Nb} (h : l.Pairwise (fun x y => x.ptr ≠ y.ptr))
    {q : Nb → Bool} {b : Nb} (hb : l.find? q = some b) (x : Nb) :
    x ∈ l.eraseP q ↔ x ∈ l ∧ x.ptr ≠ b.ptr := by
  induction l with
  | nil => cases hb
  | cons y ys ih =>
    rw [List.pairwise_cons] at h
    rw [List.find?_cons] at hb
    rw [List.eraseP_cons]
    cases hy : q y with
    | true =>
      rw [hy] at hb
      cases hb
      simp only [cond_true]
      constructor
      · intro hx
        exact ⟨List.mem_cons_of_mem _ hx, fun e => h.1 x hx e.symm⟩
      · rintro ⟨hx, hne⟩
        rcases List.mem_cons.1 hx with rfl | hx
        · exact absurd rfl hne
        · exact hx
    | false =>
      rw [hy] at hb
      simp only [cond_false]
      rw [List.mem_cons, List.mem_cons, ih h.2 hb]
      have hby := List.mem_of_find?_eq_some hb
      constructor
      · rintro (rfl | ⟨h1, h2⟩)
        · exact ⟨Or.inl rfl, h.1 b hby⟩
        · exact ⟨Or.inr h1, h2⟩
      · rintro ⟨rfl | h1, h2⟩
        · exact Or.inl rfl
        · exact Or.inr ⟨h1, h2⟩

private theorem find_ptr {l : List Nb} (h : l.Pairwise (fun x y => x.ptr ≠ y.ptr)) {b : Nb}
    (hb : b ∈ l) : l.find? (fun x => x.ptr == b.ptr) = some b := by
  induction l with
  | nil => cases hb
  | cons y ys ih =>
    rw [List.pairwise_cons] at h
    rw [List.find?_cons]
    rcases List.mem_cons.1 hb with rfl | hb
    · simp only [beq_self_eq_true]
    · have : (y.ptr == b.ptr) = false := beq_eq_false_iff_ne.2 (h.1 b hb)
      rw [this]
      exact ih h.2 hb

private theorem dedup_live {s : State} (hl : Live s) {m t : Nat} (hne : t ≠ m) :
    Live (dedupNb m s t) := by
  unfold dedupNb
  cases ht : nbOf s t with
  | none => exact hl
  | some tn =>
    cases hm : nbOf s m with
    | none => exact hl
    | some rn =>
      simp only
      obtain ⟨ht1, ht2⟩ := nbOf_some ht
      obtain ⟨hm1, hm2⟩ := nbOf_some hm
      have hp : rn.ptr ≠ tn.ptr := fun e => by
        have := ptr_inj hl.ptrs hm1 ht1 e
        rw [this] at hm2
        exact hne (ht2.symm.trans hm2)
      have hme := mem_eraseP_ptr hl.ptrs (find_ptr hl.ptrs ht1)
      refine ⟨hl.ptrs.sublist List.eraseP_sublist, fun b hb => hl.fresh b ((hme b).1 hb).1, ?_,
        hl.self⟩
      intro l hlm
      have hlm : l ∈ s.links.map (fun l => if l.nbr = tn.ptr then { l with nbr := rn.ptr } else l) :=
        hlm
      obtain ⟨k, hk, rfl⟩ := List.mem_map.1 hlm
      by_cases hkt : k.nbr = tn.ptr
      · rw [if_pos hkt]
        exact ⟨rn, (hme rn).2 ⟨hm1, hp⟩, rfl⟩
      · rw [if_neg hkt]
        obtain ⟨b, hb, he⟩ := hl.live k hk
        exact ⟨b, (hme b).2 ⟨hb, fun e => hkt (he.symm.trans e)⟩, he⟩

private theorem dedups_live {m : Nat} : ∀ (ts : List Nat) {s : State}, Live s → (∀ t ∈ ts, t ≠ m) →
    Live (ts.foldl (dedupNb m) s) := by
  intro ts
  induction ts with
  | nil => intro s hl _; exact hl
  | cons t ts ih =>
    intro s hl h
    exact ih (dedup_live hl (h t (List.mem_cons_self ..)))
      (fun x hx => h x (List.mem_cons_of_mem _ hx))

private theorem insertTuple_live {s : State} (ht : Tables s) (hl : Live s) {m a : Nat}
    (hne : a ≠ m) : Live (insertTuple s m a) := by
  unfold insertTuple
  split
  · exact hl
  · have hn := addAlias_nbs s m a
    apply dedups_live
    · refine ⟨by rw [hn.1]; exact hl.ptrs, by rw [hn.1, hn.2.2]; exact hl.fresh,
        by rw [hn.1, hn.2.1]; exact hl.live, ?_⟩
      intro p hp
      have : p = (a, m) ∨ p ∈ s.rev := by
        unfold addAlias at hp
        split at hp <;> exact List.mem_cons.1 hp
      rcases this with rfl | h
      · exact hne
      · exact hl.self p h
    · intro t htm
      rcases List.mem_cons.1 htm with rfl | htm
      · exact hne
      · exact hl.self (t, m) ((mem_aliases ht).1 htm)

private theorem insertNb_live {s : State} (hl : Live s) (m : Nat) :
    Live (insertNb s m).1 ∧ (∃ b ∈ (insertNb s m).1.nbs, b.ptr = (insertNb s m).2) ∧
      (∀ b ∈ s.nbs, b ∈ (insertNb s m).1.nbs) ∧ (insertNb s m).1.links = s.links := by
  unfold insertNb
  cases hn : nbOf s m with
  | some b => exact ⟨hl, ⟨b, (nbOf_some hn).1, rfl⟩, fun c hc => hc, rfl⟩
  | none =>
    refine ⟨⟨?_, ?_, ?_, hl.self⟩, ⟨_, List.mem_cons_self .., rfl⟩,
      fun c hc => List.mem_cons_of_mem _ hc, rfl⟩
    · show List.Pairwise _ (_ :: s.nbs)
      rw [List.pairwise_cons]
      refine ⟨fun c hc => ?_, hl.ptrs⟩
      have := hl.fresh c hc
      show s.fresh ≠ c.ptr
      omega
    · intro c hc
      show c.ptr < s.fresh + 1
      rcases List.mem_cons.1 hc with rfl | hc
      · exact Nat.lt_succ_self _
      · exact Nat.lt_succ_of_lt (hl.fresh c hc)
    · intro l hlm
      obtain ⟨b, hb, he⟩ := hl.live l hlm
      exact ⟨b, List.mem_cons_of_mem _ hb, he⟩

private theorem deleteEnt_live {s : State} (ht : Tables s) (hl : Live s) {e : Ent}
    (he : e ∈ s.ents) : Live (deleteEnt s e) :=
  ⟨hl.ptrs, hl.fresh, hl.live, fun p hp => hl.self p (((deleteEnt_tables ht he).2 p).1 hp).1⟩

private theorem insertAlias_live {env : Env} {s : State} (ht : Tables s) (hl : Live s) {m a : Nat}
    (hne : a ≠ m) : Live (insertAlias env s m a) := by
  unfold insertAlias
  split
  · cases hn : nbOf s a with
    | none => exact insertTuple_live ht hl hne
    | some old =>
      simp only
      obtain ⟨s3, hs3⟩ : ∃ s3, replaceLinks (insertNb (deleteNb s a) m).1 old.ptr
        (insertNb (deleteNb s a) m).2 = s3 := ⟨_, rfl⟩
      rw [hs3]
      have hme := mem_eraseP_ptr hl.ptrs hn
      have ht3 : Tables s3 := by
        rw [← hs3]
        have h1 : Same s (insertNb (deleteNb s a) m).1 :=
          (show Same s (deleteNb s a) from ⟨rfl, rfl⟩).trans (same_insertNb _ m)
        exact (show Same s (replaceLinks _ _ _) from ⟨h1.1, h1.2⟩).tables ht
      have hl3 : Live s3 := by
        rw [← hs3]
        -- after the removal all links but those of the old entry are live
        have h2 : ∀ l ∈ s.links, l.nbr ≠ old.ptr → ∃ b ∈ (deleteNb s a).nbs, b.ptr = l.nbr := by
          intro l hlm hlo
          obtain ⟨b, hb, he⟩ := hl.live l hlm
          exact ⟨b, (hme b).2 ⟨hb, fun e => hlo (he.symm.trans e)⟩, he⟩
        have hl2 : Live { deleteNb s a with links := [] } :=
          ⟨hl.ptrs.sublist List.eraseP_sublist, fun b hb => hl.fresh b ((hme b).1 hb).1,
            (fun _ h => (by cases h)), hl.self⟩
        have hi := insertNb_live hl2 m
        have hsn : (insertNb { deleteNb s a with links := [] } m).1.nbs =
              (insertNb (deleteNb s a) m).1.nbs ∧
            (insertNb { deleteNb s a with links := [] } m).1.fresh =
              (insertNb (deleteNb s a) m).1.fresh ∧
            (insertNb { deleteNb s a with links := [] } m).1.rev =
              (insertNb (deleteNb s a) m).1.rev ∧
            (insertNb { deleteNb s a with links := [] } m).2 = (insertNb (deleteNb s a) m).2 := by
          unfold insertNb
          have : nbOf { deleteNb s a with links := [] } m = nbOf (deleteNb s a) m := rfl
          rw [this]
          cases nbOf (deleteNb s a) m <;> exact ⟨rfl, rfl, rfl, rfl⟩
        have hli : (insertNb (deleteNb s a) m).1.links = s.links := by
          unfold insertNb
          cases nbOf (deleteNb s a) m <;> rfl
        obtain ⟨e1, e2, e3, e4⟩ := hsn
        obtain ⟨hi1, hi2, hi3, _⟩ := hi
        rw [e1, e4] at hi2
        rw [e1] at hi3
        refine ⟨?_, ?_, ?_, ?_⟩
        · have := hi1.ptrs; rw [e1] at this; exact this
        · have := hi1.fresh; rw [e1, e2] at this; exact this
        · intro l hlm
          have hlm : l ∈ (insertNb (deleteNb s a) m).1.links.map (fun l =>
            if l.nbr = old.ptr then { l with nbr := (insertNb (deleteNb s a) m).2 } else l) := hlm
          rw [hli] at hlm
          obtain ⟨k, hk, rfl⟩ := List.mem_map.1 hlm
          by_cases hko : k.nbr = old.ptr
          · rw [if_pos hko]; exact hi2
          · rw [if_neg hko]
            obtain ⟨b, hb, he⟩ := h2 k hk hko
            exact ⟨b, hi3 b hb, he⟩
        · have := hi1.self; rw [e3] at this; exact this
      cases he : entry s3 a with
      | none => exact insertTuple_live ht3 hl3 hne
      | some e =>
        simp only
        have hem := ((entry_some ht3).1 he).1
        exact insertTuple_live (deleteEnt_tables ht3 hem).1 (deleteEnt_live ht3 hl3 hem) hne
  · exact hl

private theorem midLoop_live {env : Env} {orig : Nat} : ∀ (as : List Nat) {s : State}, Tables s →
    Live s → (∀ a ∈ as, a ≠ orig) → Live (midLoop env orig s as) := by
  intro as
  induction as with
  | nil => intro s _ hl _; exact hl
  | cons a as ih =>
    intro s ht hl h
    have h' : ∀ x ∈ as, x ≠ orig := fun x hx => h x (List.mem_cons_of_mem _ hx)
    unfold midLoop
    split
    · exact ih ht hl h'
    · cases hm : lookupMain s a with
      | some x => exact ih ht hl h'
      | none =>
        simp only
        have hr : ∀ x, (a, x) ∈ s.rev → x = orig := fun x hx =>
          absurd hx (lookupMain_none.1 hm x)
        exact ih (insertAlias_tables ht hr).1
          (insertAlias_live ht hl (h a (List.mem_cons_self ..))) h'

private theorem prune_live {s : State} (ht : Tables s) (hl : Live s) {orig : Nat}
    {listed : List Nat} {timedOut : Nat → Bool} : Live (prune s orig listed timedOut) := by
  have hp := (prune_tables (orig := orig) (listed := listed) (timedOut := timedOut) ht).2
  have hsame : (prune s orig listed timedOut).nbs = s.nbs ∧
      (prune s orig listed timedOut).links = s.links ∧
      (prune s orig listed timedOut).fresh = s.fresh := by
    unfold prune
    split <;> exact ⟨rfl, rfl, rfl⟩
  obtain ⟨h1, h2, h3⟩ := hsame
  refine ⟨by rw [h1]; exact hl.ptrs, by rw [h1, h3]; exact hl.fresh,
    by rw [h1, h2]; exact hl.live, ?_⟩
  intro p hpp
  exact hl.self p ((hp p).1 hpp).1

private theorem findNb_live {s : State} (hl : Live s) (src : Nat) :
    Live (findNb s src).1 ∧ (∃ b ∈ (findNb s src).1.nbs, b.ptr = (findNb s src).2) := by
  unfold findNb
  cases hn : nbOfAny s src with
  | none => exact ⟨(insertNb_live hl src).1, (insertNb_live hl src).2.1⟩
  | some b =>
    refine ⟨hl, b, ?_, rfl⟩
    unfold nbOfAny at hn
    split at hn <;> exact (nbOf_some hn).1

private theorem addLink_live {s : State} (hl : Live s) (r i src : Nat) :
    ∃ t, addLink s r i src = some t ∧ Live t ∧ ∃ l ∈ t.links, l.remote = r ∧ l.iface = i := by
  unfold addLink
  cases hk : lookupLink s r i with
  | some l =>
    simp only
    have hl' := link_some hk
    obtain ⟨b, hb⟩ := deref_isSome (hl.live l hl'.1)
    rw [hb]
    simp only
    have hb' := deref_some hb
    split
    · exact ⟨s, rfl, hl, l, hl'⟩
    · have hme := mem_eraseP_ptr hl.ptrs (find_ptr hl.ptrs hb'.1)
      refine ⟨_, rfl, ⟨?_, ?_, ?_, hl.self⟩, l, hl'⟩
      · show List.Pairwise _ (_ :: s.nbs.eraseP _)
        rw [List.pairwise_cons]
        exact ⟨fun c hc e => ((hme c).1 hc).2 e.symm, hl.ptrs.sublist List.eraseP_sublist⟩
      · intro c hc
        rcases List.mem_cons.1 hc with rfl | hc
        · exact hl.fresh b hb'.1
        · exact hl.fresh c ((hme c).1 hc).1
      · intro k hkm
        obtain ⟨c, hc, he⟩ := hl.live k hkm
        by_cases hcb : c.ptr = b.ptr
        · exact ⟨_, List.mem_cons_self .., hcb.symm.trans he⟩
        · exact ⟨c, List.mem_cons_of_mem _ ((hme c).2 ⟨hc, hcb⟩), he⟩
  | none =>
    simp only
    obtain ⟨q, hq⟩ : ∃ q : State × Nat, findNb s src = q := ⟨_, rfl⟩
    have hf := findNb_live hl src
    have hlinks : (findNb s src).1.links = s.links := by
      unfold findNb
      split
      · rfl
      · exact (insertNb_live hl src).2.2.2
    rw [hq] at hf hlinks ⊢
    obtain ⟨hf1, b, hb1, hb2⟩ := hf
    have hptr : ∀ x : Nb, (if x.ptr = q.2 then { x with count := x.count + 1 } else x).ptr =
        x.ptr := by
      intro x; split <;> rfl
    refine ⟨_, rfl, ⟨?_, ?_, ?_, hf1.self⟩, _, List.mem_append_right _ (List.mem_singleton.2 rfl),
      rfl, rfl⟩
    · show List.Pairwise _ (q.1.nbs.map _)
      rw [List.pairwise_map]
      refine hf1.ptrs.imp ?_
      intro x y h
      rw [hptr x, hptr y]; exact h
    · intro c hc
      obtain ⟨x, hx, rfl⟩ := List.mem_map.1 hc
      rw [hptr x]; exact hf1.fresh x hx
    · intro l hlm
      rcases List.mem_append.1 hlm with hlm | hlm
      · obtain ⟨c, hc, he⟩ := hf1.live l hlm
        exact ⟨_, List.mem_map.2 ⟨c, hc, rfl⟩, (hptr c).trans he⟩
      · rw [List.mem_singleton] at hlm
        subst hlm
        exact ⟨_, List.mem_map.2 ⟨b, hb1, rfl⟩, (hptr b).trans hb2⟩

private theorem keys_map (s : State) (f : Lk → Lk)
    (hf : ∀ l, (f l).remote = l.remote ∧ (f l).iface = l.iface) {r i : Nat}
    (h : ∃ l ∈ s.links, l.remote = r ∧ l.iface = i) :
    ∃ l ∈ s.links.map f, l.remote = r ∧ l.iface = i := by
  obtain ⟨l, h1, h2⟩ := h
  exact ⟨f l, List.mem_map.2 ⟨l, h1, rfl⟩, (hf l).1.trans h2.1, (hf l).2.trans h2.2⟩

private theorem replace_keys {s : State} {old new r i : Nat}
    (h : ∃ l ∈ s.links, l.remote = r ∧ l.iface = i) :
    ∃ l ∈ (replaceLinks s old new).links, l.remote = r ∧ l.iface = i := by
  unfold replaceLinks
  apply keys_map s
  · intro l; split <;> exact ⟨rfl, rfl⟩
  · exact h

private theorem dedups_keys {m r i : Nat} : ∀ (ts : List Nat) {s : State},
    (∃ l ∈ s.links, l.remote = r ∧ l.iface = i) →
    ∃ l ∈ (ts.foldl (dedupNb m) s).links, l.remote = r ∧ l.iface = i := by
  intro ts
  induction ts with
  | nil => intro s h; exact h
  | cons t ts ih =>
    intro s h
    apply ih
    unfold dedupNb
    split
    · exact replace_keys h
    · exact h

private theorem insertTuple_keys {s : State} {m a r i : Nat}
    (h : ∃ l ∈ s.links, l.remote = r ∧ l.iface = i) :
    ∃ l ∈ (insertTuple s m a).links, l.remote = r ∧ l.iface = i := by
  unfold insertTuple
  split
  · exact h
  · apply dedups_keys
    rw [(addAlias_nbs s m a).2.1]; exact h

private theorem insertAlias_keys {env : Env} {s : State} {m a r i : Nat}
    (h : ∃ l ∈ s.links, l.remote = r ∧ l.iface = i) :
    ∃ l ∈ (insertAlias env s m a).links, l.remote = r ∧ l.iface = i := by
  unfold insertAlias
  split
  · split
    · rename_i old _
      have h3 : ∃ l ∈ (replaceLinks (insertNb (deleteNb s a) m).1 old.ptr
          (insertNb (deleteNb s a) m).2).links, l.remote = r ∧ l.iface = i := by
        apply replace_keys
        unfold insertNb
        split <;> exact h
      simp only
      split
      · exact insertTuple_keys (s := deleteEnt _ _) h3
      · exact insertTuple_keys h3
    · exact insertTuple_keys h
  · exact h

private theorem step_live {env : Env} {s : State} (ht : Tables s) (hl : Live s) {o : Op}
    (hp : NoDrop s o) : ∃ t, step env s o = some t ∧ Live t := by
  cases o with
  | dropLink r i => exact absurd hp (fun h => h)
  | dropMid m =>
    unfold step
    simp only
    cases he : entry s m with
    | some e => exact ⟨_, rfl, deleteEnt_live ht hl ((entry_some ht).1 he).1⟩
    | none => exact ⟨_, rfl, hl⟩
  | mid orig listed timedOut =>
    refine ⟨_, rfl, ?_⟩
    unfold inputMid
    split
    · refine prune_live (midLoop_tables listed ht).1 (midLoop_live listed ht hl ?_)
      intro a ha e
      rw [e] at ha
      exact hp ha
    · exact hl
  | hello r i src =>
    obtain ⟨s1, ha, hl1, hk1⟩ := addLink_live hl r i src
    have ht1 := (same_addLink ha).tables ht
    show ∃ t, hello env s r i src = some t ∧ Live t
    unfold hello
    rw [ha]
    simp only
    obtain ⟨s2, hs2⟩ : ∃ s2, (if src ≠ r ∧ env.valid r = true ∧
        (lookupMain s1 r = none ∨ lookupMain s1 r = some src) then insertAlias env s1 src r
        else s1) = s2 := ⟨_, rfl⟩
    rw [hs2]
    have h2 : Live s2 ∧ ∃ l ∈ s2.links, l.remote = r ∧ l.iface = i := by
      rw [← hs2]
      split
      · rename_i hc
        exact ⟨insertAlias_live ht1 hl1 (fun e => hc.1 e.symm), insertAlias_keys hk1⟩
      · exact ⟨hl1, hk1⟩
    cases hk : lookupLink s2 r i with
    | none =>
      obtain ⟨l, hl, hlk⟩ := h2.2
      exact absurd hlk (link_none hk l hl)
    | some k =>
      simp only
      obtain ⟨b, hb⟩ := deref_isSome (h2.1.live k (link_some hk).1)
      rw [hb]
      exact ⟨s2, rfl, h2.1⟩

private theorem reach_live {env : Env} {s : State} (h : Reach env NoDrop s) : Live s := by
  induction h with
  | start =>
    exact ⟨List.Pairwise.nil, (fun _ h => (by cases h)), (fun _ h => (by cases h)),
      (fun _ h => (by cases h))⟩
  | next hr hp hs ih =>
    obtain ⟨t, h1, h2⟩ := step_live (env := env) (reach_tables hr) ih hp
    rw [hs, Option.some.injEq] at h1
    rw [h1]; exact h2

/-- C59 for any other events, moves of main addresses and merges of neighbours included, as long as
no link is deleted and no MID message lists its own originator: all links point at live entries and
no freed entry is read.

Missing, against the full statement: the counts, and therefore the deletion of links
(`C59_merge_reads_freed`), and MID messages that list their originator
(`C59_self_alias_reads_freed`). -/
theorem C59_live_partial {env : Env} {s : State} (h : Reach env NoDrop s) :
    (∀ l ∈ s.links, ∃ b ∈ s.nbs, b.ptr = l.nbr) ∧ ∀ o, NoDrop s o → step env s o ≠ none := by
  have hl := reach_live h
  refine ⟨hl.live, fun o hp hn => ?_⟩
  obtain ⟨t, h1, _⟩ := step_live (env := env) (reach_tables h) hl hp
  rw [hn] at h1
  cases h1

/-- All addresses are acceptable and none is ours. -/
def openEnv : Env := { own := [], valid := fun _ => true }

/-- A MID message in which a neighbour lists its own main address as an alias: the neighbour entry
is freed while the link still points at it, and the next HELLO reads it. -/
theorem C59_self_alias_reads_freed :
    run openEnv init [.hello 10 1 10, .mid 10 [10] (fun _ => true)] ≠ none ∧
    run openEnv init [.hello 10 1 10, .mid 10 [10] (fun _ => true), .hello 10 1 10] = none := by
  decide

/-- An address moves from one neighbour to another: the HELLO renames the first neighbour's entry,
so that two entries have the same main address, and when the other link goes, the wrong one is
freed. -/
theorem C59_moved_address_reads_freed :
    run openEnv init [.hello 10 1 10, .hello 20 1 20, .hello 10 1 20, .dropLink 20 1] ≠ none ∧
    run openEnv init [.hello 10 1 10, .hello 20 1 20, .hello 10 1 20, .dropLink 20 1,
      .hello 10 1 20] = none := by decide

/-- A MID message that makes one neighbour an alias of another one: the links are moved over but
not counted, so that the entry is freed when the first of its two links goes. -/
theorem C59_merge_reads_freed :
    run openEnv init [.hello 10 1 10, .hello 20 2 20, .mid 20 [10] (fun _ => true),
      .dropLink 20 2] ≠ none ∧
    run openEnv init [.hello 10 1 10, .hello 20 2 20, .mid 20 [10] (fun _ => true), .dropLink 20 2,
      .hello 10 1 20] = none := by decide

/-- A MID message that gives a neighbour another main address: the new entry counts no link, so it
stays in the table for ever when the link goes. -/
theorem C59_neighbour_without_links :
    ∃ s, run openEnv init [.hello 10 1 10, .mid 20 [10] (fun _ => true), .dropLink 10 1] = some s ∧
      s.links = [] ∧ s.nbs = [⟨1, 20, -1⟩] := by
  refine ⟨⟨[⟨1, 20, -1⟩], [], [⟨20, [10]⟩], [(10, 20)], 2⟩, by decide, rfl, rfl⟩

/-! ### Examples -/

/-- Two neighbours, one with two links; aliases learned from a HELLO and from a MID message. -/
example : run openEnv init [.hello 10 1 10, .hello 11 2 10, .hello 20 1 20,
      .mid 10 [11, 12] (fun _ => true), .dropLink 10 1] =
    some ⟨[⟨1, 20, 1⟩, ⟨0, 10, 1⟩], [⟨11, 2, 0⟩, ⟨20, 1, 1⟩], [⟨10, [12, 11]⟩],
      [(12, 10), (11, 10)], 2⟩ := by decide

/-- These events are plain ones. -/
example : Reach openEnv Plain ⟨[⟨0, 10, 2⟩], [⟨10, 1, 0⟩, ⟨11, 2, 0⟩], [⟨10, [11]⟩],
    [(11, 10)], 1⟩ := by
  have a1 : Reach openEnv Plain ⟨[⟨0, 10, 1⟩], [⟨10, 1, 0⟩], [], [], 1⟩ :=
    Reach.next (o := .hello 10 1 10) Reach.start
      ⟨(fun _ h => (by cases h)), (fun _ h => (by cases h)), Or.inl rfl⟩ (by decide)
  refine Reach.next (o := .hello 11 2 10) a1 ⟨by decide, (fun _ h => (by cases h)), Or.inr ?_⟩
    (by decide)
  decide

/-- Aliases that are listed no more go when their time is up; a message that lists none at all
drops the others too. -/
example : (run openEnv init [.mid 10 [11, 12] (fun _ => false), .mid 10 [13] (fun a => a == 11)]).map
      (fun s => lookupAliases s 10) = some [13, 12] ∧
    (run openEnv init [.mid 10 [11, 12] (fun _ => false), .mid 10 [] (fun _ => false)]).map
      (fun s => lookupAliases s 10) = some [] := by decide

/-- A merge of two neighbours: an alias gets a neighbour entry of its own while the main address has
none, and the next new alias moves its link over. -/
example : Reach openEnv NoDrop ⟨[⟨1, 10, 1⟩], [⟨11, 1, 1⟩, ⟨10, 1, 1⟩], [⟨10, [12, 11]⟩],
    [(12, 10), (11, 10)], 2⟩ := by
  have a1 : Reach openEnv NoDrop ⟨[], [], [⟨10, [11]⟩], [(11, 10)], 0⟩ :=
    Reach.next (o := .mid 10 [11] (fun _ => false)) Reach.start
      (show 10 ∉ [11] by decide) (by decide)
  have a2 : Reach openEnv NoDrop ⟨[⟨0, 11, 1⟩], [⟨11, 1, 0⟩], [⟨10, [11]⟩], [(11, 10)], 1⟩ :=
    Reach.next (o := .hello 11 1 11) a1 trivial (by decide)
  have a3 : Reach openEnv NoDrop ⟨[⟨1, 10, 1⟩, ⟨0, 11, 1⟩], [⟨11, 1, 0⟩, ⟨10, 1, 1⟩], [⟨10, [11]⟩],
      [(11, 10)], 2⟩ :=
    Reach.next (o := .hello 10 1 10) a2 trivial (by decide)
  exact Reach.next (o := .mid 10 [12] (fun _ => false)) a3 (show 10 ∉ [12] by decide)
    (by decide)

end Verif.Mid
