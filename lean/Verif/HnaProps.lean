import Verif.HnaLemmas
/-!
# C87, C88, C89: announced networks, their routes, and the recalculation they trigger
-/
namespace Verif.Hna

/-- Everything that happens to the HNA set and to the prefixes of the topology entries.  `hna` is one accepted
pair of an HNA message; `processed` is `olsr_process_changes` (olsr.c 186-262), which clears the flags. -/
inductive Op where
  | hna (gw : List Nat) (p : Pfx) (now vtime delay : Nat)
  | expire (gw : List Nat) (p : Pfx) (now : Nat)
  | emptyTc (a : List Nat)
  | expireTc (a : List Nat)
  | locate (a : List Nat)
  | midSeen (main a : List Nat)
  | midGone (main a : List Nat)
  | processed

/-- The effect of one event. -/
def step (c : Cfg) (s : St) : Op → St
  | .hna gw p now vtime delay => update c s gw p now vtime delay
  | .expire gw p _ => deleteNet c s gw p
  | .emptyTc a => emptyTc c s a
  | .expireTc a => expireTc c s a
  | .locate a => (locateTc c s a).getD s
  | .midSeen m a => midSeen c s m a
  | .midGone m a => midGone c s m a
  | .processed => { s with chHna := false, chTopo := false }

/-- The network `p` of `gw` is in the HNA set, with this timer. -/
def Listed (s : St) (gw : List Nat) (p : Pfx) (t : Option Nat) : Prop :=
  ∃ e ∈ s.ents, e.gw = gw ∧ ∃ n ∈ e.nets, n.pfx = p ∧ n.timer = t

/-- A timer fires only when it is due.  The jitter takes at most 5 percent (C09), and no validity time on the wire
is zero (C01). -/
def Enabled (s : St) : Op → Prop
  | .hna _ _ _ vtime delay => 0 < vtime ∧ delay ≤ vtime ∧ 100 * (vtime - delay) ≤ 5 * vtime
  | .expire gw p now => ∃ t, Listed s gw p (some t) ∧ t ≤ now
  | _ => True

/-- All histories from the empty tables on. -/
inductive Run (c : Cfg) : List Op → St → Prop where
  | nil : Run c [] init
  | snoc (ops : List Op) (s : St) (o : Op) : Run c ops s → Enabled s o → Run c (ops ++ [o]) (step c s o)

/-- Events that announce or withdraw the network `p` of `gw`. -/
def Touches (gw : List Nat) (p : Pfx) : Op → Prop
  | .hna g q _ _ _ => g = gw ∧ q = p
  | .expire g q _ => g = gw ∧ q = p
  | .emptyTc a => a = gw
  | _ => False

/-! ### Helpers -/

private theorem foldl_drop {es : List Ent} (hw : Wf es) (gw : List Nat) (L : List Net) :
    Wf (L.foldl (fun es n => dropNet es gw n.pfx) es) ∧
    ∀ g q, view (L.foldl (fun es n => dropNet es gw n.pfx) es) g q = if g = gw ∧ q ∈ L.map Net.pfx then none else view es g q := by
  induction L generalizing es with
  | nil => exact ⟨hw, fun g q => by simp⟩
  | cons n L ih =>
    have h1 := ih (wf_drop hw gw n.pfx)
    refine ⟨h1.1, fun g q => ?_⟩
    rw [List.foldl_cons, h1.2 g q, view_drop hw]
    by_cases hg : g = gw
    · by_cases hq : q = n.pfx
      · subst hq; simp [hg]
      · simp [hg, hq]
    · simp [hg]

private theorem foldl_deleteNet {s : St} (hO : Owned s) (c : Cfg) (gw : List Nat) (L : List Net) :
    (L.foldl (fun s n => deleteNet c s gw n.pfx) s).ents = L.foldl (fun es n => dropNet es gw n.pfx) s.ents ∧
    Owned (L.foldl (fun s n => deleteNet c s gw n.pfx) s) ∧
    (∀ o p, o ≠ gw → (has (L.foldl (fun s n => deleteNet c s gw n.pfx) s) o p ↔ has s o p)) ∧
    (L.foldl (fun s n => deleteNet c s gw n.pfx) s).tc = s.tc ∧ (L.foldl (fun s n => deleteNet c s gw n.pfx) s).mids = s.mids ∧
    (∀ o p, has (L.foldl (fun s n => deleteNet c s gw n.pfx) s) o p → has s o p) := by
  induction L generalizing s with
  | nil => exact ⟨rfl, hO, fun _ _ _ => Iff.rfl, rfl, rfl, fun _ _ h => h⟩
  | cons n L ih =>
    have hO1 : Owned (deleteNet c s gw n.pfx) := owned_delete hO c n.pfx gw
    obtain ⟨h1, h2, h3, h4, h5, h6⟩ := ih hO1
    have hd : ∀ o p, has (deleteNet c s gw n.pfx) o p ↔ has s o p ∧ ¬ (o = gw ∧ p = n.pfx ∧ n.pfx.len ≤ c.maxplen) :=
      fun o p => deleteRoute_has hO c n.pfx p gw o
    refine ⟨h1, h2, fun o p ho => ?_, ?_, ?_, fun o p h => ((hd o p).1 (h6 o p h)).1⟩
    · rw [List.foldl_cons, h3 o p ho, hd o p]
      exact ⟨fun h => h.1, fun h => ⟨h, fun hc => ho hc.1⟩⟩
    · rw [List.foldl_cons, h4]; exact (deleteRoute_same c s n.pfx gw).2.1
    · rw [List.foldl_cons, h5]; exact (deleteRoute_same c s n.pfx gw).2.2.1

private theorem view_none_of_lookup {es : List Ent} {gw : List Nat} (h : lookupGw es gw = none) (q : Pfx) : view es gw q = none := by
  unfold view; rw [h]; rfl

private theorem cleanup_facts {s : St} (hw : Wf s.ents) (hO : Owned s) (c : Cfg) (gw : List Nat) :
    Wf (cleanupHna c s gw).ents ∧ Owned (cleanupHna c s gw) ∧
    (∀ g q, view (cleanupHna c s gw).ents g q = if g = gw then none else view s.ents g q) ∧
    (∀ o p, o ≠ gw → (has (cleanupHna c s gw) o p ↔ has s o p)) := by
  unfold cleanupHna
  cases hl : lookupGw s.ents gw with
  | none =>
    refine ⟨hw, hO, fun g q => ?_, fun _ _ _ => Iff.rfl⟩
    by_cases hg : g = gw
    · rw [if_pos hg, hg]; exact view_none_of_lookup hl q
    · rw [if_neg hg]
  | some e =>
    obtain ⟨h1, h2, h3, _, _, _⟩ := foldl_deleteNet hO c gw e.nets
    have h4 := foldl_drop hw gw e.nets
    simp only []
    rw [h1]
    refine ⟨h4.1, h2, fun g q => ?_, h3⟩
    rw [h4.2]
    by_cases hg : g = gw
    · subst hg
      rw [if_pos rfl]
      by_cases hq : q ∈ e.nets.map Net.pfx
      · rw [if_pos ⟨rfl, hq⟩]
      · rw [if_neg (fun hc => hq hc.2)]
        unfold view
        rw [hl, Option.bind_some, lookupNet_none.2 hq]
        rfl
    · rw [if_neg (fun hc => hg hc.1), if_neg hg]

private theorem midGone_facts {s : St} (hO : Owned s) (c : Cfg) (m a : List Nat) :
    (midGone c s m a).ents = s.ents ∧ Owned (midGone c s m a) ∧ (midGone c s m a).tc = s.tc ∧
    (∀ o p, has (midGone c s m a) o p → has s o p) ∧
    (∀ o p, ¬ (o = m ∧ p = host c a) → (has (midGone c s m a) o p ↔ has s o p)) := by
  unfold midGone
  split
  · have hO1 : Owned { s with mids := s.mids.erase (a, m) } := hO
    have h1 := deleteRoute_same c { s with mids := s.mids.erase (a, m) } (host c a) m
    have h2 := fun o p => deleteRoute_has hO1 c (host c a) p m o
    refine ⟨h1.1, owned_delete hO1 c _ _, h1.2.1, fun o p h => ((h2 o p).1 h).1, fun o p hne => ?_⟩
    rw [h2 o p]
    exact ⟨fun h => h.1, fun h => ⟨h, fun hc => hne ⟨hc.1, hc.2.1⟩⟩⟩
  · exact ⟨rfl, hO, rfl, fun _ _ h => h, fun _ _ _ => Iff.rfl⟩

private theorem foldl_midGone {s : St} (hO : Owned s) (c : Cfg) (m : List Nat) (L : List (List Nat × List Nat)) :
    (L.foldl (fun s x => midGone c s m x.1) s).ents = s.ents ∧ Owned (L.foldl (fun s x => midGone c s m x.1) s) ∧
    (∀ o p, o ≠ m → (has (L.foldl (fun s x => midGone c s m x.1) s) o p ↔ has s o p)) := by
  induction L generalizing s with
  | nil => exact ⟨rfl, hO, fun _ _ _ => Iff.rfl⟩
  | cons x L ih =>
    obtain ⟨h1, h2, _, _, h5⟩ := midGone_facts hO c m x.1
    obtain ⟨i1, i2, i3⟩ := ih h2
    refine ⟨by rw [List.foldl_cons, i1, h1], i2, fun o p ho => ?_⟩
    rw [List.foldl_cons, i3 o p ho, h5 o p (fun hc => ho hc.1)]

private theorem emptyTc_facts {s : St} (hw : Wf s.ents) (hO : Owned s) (c : Cfg) (a : List Nat) :
    Wf (emptyTc c s a).ents ∧ Owned (emptyTc c s a) ∧
    (∀ g q, view (emptyTc c s a).ents g q = if g = a then none else view s.ents g q) ∧
    (∀ o p, has (emptyTc c s a) o p ↔ has s o p ∧ o ≠ a) := by
  unfold emptyTc
  simp only []
  obtain ⟨h1, h2, h3⟩ := foldl_midGone hO c a (s.mids.filter (fun x => x.2 == a))
  generalize (s.mids.filter (fun x => x.2 == a)).foldl (fun s x => midGone c s a x.1) s = s1 at h1 h2 h3
  obtain ⟨k1, k2, k3, k4⟩ := cleanup_facts (h1 ▸ hw) h2 c a
  rw [(delTc_same c (cleanupHna c s1 a) a).1]
  refine ⟨k1, owned_delTc k2 c a, fun g q => by rw [k3, h1], fun o p => ?_⟩
  rw [delTc_has k2]
  constructor
  · rintro ⟨h, ho⟩; exact ⟨(h3 o p ho).1 ((k4 o p ho).1 h), ho⟩
  · rintro ⟨h, ho⟩; exact ⟨(k4 o p ho).2 ((h3 o p ho).2 h), ho⟩

private theorem locate_facts {s : St} (hO : Owned s) (c : Cfg) (a : List Nat) :
    ((locateTc c s a).getD s).ents = s.ents ∧ Owned ((locateTc c s a).getD s) ∧
    (∀ o p, has ((locateTc c s a).getD s) o p ↔ has s o p ∨ (o = a ∧ ¬ s.tc a = true ∧ c.mainSet = true ∧ p = host c a)) := by
  unfold locateTc addTc
  by_cases ht : s.tc a = true
  · rw [if_pos ht]
    exact ⟨rfl, hO, fun o p => ⟨Or.inl, fun h => h.elim id (fun h2 => absurd ht h2.2.1)⟩⟩
  · rw [if_neg ht]
    by_cases hm : c.mainSet = true
    · rw [if_pos hm]
      simp only [Option.getD_some]
      have hclear : ∀ o p, has { s with tc := fun x => if x = a then true else s.tc x
                                        path := fun o' p => if o' = a then none else s.path o' p } o p ↔ has s o p := by
        intro o p
        unfold has
        show (if o = a then none else s.path o p) ≠ none ↔ _
        by_cases h : o = a
        · subst h
          rw [if_pos rfl]
          exact ⟨fun h => absurd rfl h, fun h => absurd (hO o p h) ht⟩
        · rw [if_neg h]
      have hh : ∀ o p, has (addPath { s with tc := fun x => if x = a then true else s.tc x
                                             path := fun o' p => if o' = a then none else s.path o' p } a (host c a) .int) o p ↔
          has s o p ∨ (o = a ∧ p = host c a) := by
        intro o p; rw [addPath_has, hclear]
      refine ⟨(addPath_same _ _ _ _).1, fun o p h => ?_, fun o p => ?_⟩
      · rw [(addPath_same _ _ _ _).2.1]
        show (if o = a then true else s.tc o) = true
        by_cases ho : o = a
        · rw [if_pos ho]
        · rw [if_neg ho]
          rcases (hh o p).1 h with h | h
          · exact hO o p h
          · exact absurd h.1 ho
      · rw [hh o p]
        exact ⟨fun h => h.imp id (fun h2 => ⟨h2.1, ht, hm, h2.2⟩), fun h => h.imp id (fun h2 => ⟨h2.1, h2.2.2.2⟩)⟩
    · rw [if_neg hm]
      exact ⟨rfl, hO, fun o p => ⟨Or.inl, fun h => h.elim id (fun h2 => absurd h2.2.2.1 hm)⟩⟩

private theorem midSeen_eq (c : Cfg) (s : St) (m a : List Nat) :
    ∃ l, midSeen c s m a = insertRoute c { s with mids := l } (host c a) m .mid := by
  unfold midSeen
  split
  · exact ⟨s.mids, rfl⟩
  · exact ⟨_, rfl⟩

private theorem update_facts {s : St} (hO : Owned s) (c : Cfg) (gw : List Nat) (p : Pfx) (now v d : Nat) :
    (update c s gw p now v d).ents = upd s.ents gw p (newTimer now v d) ∧ Owned (update c s gw p now v d) ∧
    (∀ o q, has (update c s gw p now v d) o q ↔ has s o q ∨
      (o = gw ∧ p.len ≤ c.maxplen ∧ (s.tc gw = true ∨ c.mainSet = true) ∧ (q = p ∨ (¬ s.tc gw = true ∧ q = host c gw)))) := by
  unfold update
  have hO1 : Owned { s with ents := upd s.ents gw p (newTimer now v d), chHna := s.chHna || !known s.ents gw p } := hO
  exact ⟨(insertRoute_same c _ p gw .hna).1, owned_insert hO1 c p gw .hna, fun o q => insertRoute_has hO1 c p q gw o .hna⟩

private theorem wf_init : Wf init.ents := ⟨List.nodup_nil, fun _ h => (by cases h), fun _ h => (by cases h)⟩

private theorem step_wf {s : St} (hw : Wf s.ents) (hO : Owned s) (c : Cfg) (o : Op) : Wf (step c s o).ents ∧ Owned (step c s o) := by
  cases o with
  | hna gw p now v d =>
    have h := update_facts hO c gw p now v d
    exact ⟨by show Wf (update c s gw p now v d).ents; rw [h.1]; exact wf_upd hw _ _ _, h.2.1⟩
  | expire gw p now => exact ⟨wf_drop hw gw p, owned_delete hO c p gw⟩
  | emptyTc a => have h := emptyTc_facts hw hO c a; exact ⟨h.1, h.2.1⟩
  | expireTc a =>
    refine ⟨?_, owned_delTc hO c a⟩
    show Wf (delTc c s a).ents
    rw [(delTc_same c s a).1]; exact hw
  | locate a => have h := locate_facts hO c a; exact ⟨by show Wf ((locateTc c s a).getD s).ents; rw [h.1]; exact hw, h.2.1⟩
  | midSeen m a =>
    obtain ⟨l, hl⟩ := midSeen_eq c s m a
    have hO1 : Owned { s with mids := l } := hO
    show Wf (midSeen c s m a).ents ∧ Owned (midSeen c s m a)
    rw [hl]
    exact ⟨by rw [(insertRoute_same c _ _ _ _).1]; exact hw, owned_insert hO1 c _ _ _⟩
  | midGone m a =>
    have h := midGone_facts hO c m a
    exact ⟨by show Wf (midGone c s m a).ents; rw [h.1]; exact hw, h.2.1⟩
  | processed => exact ⟨hw, hO⟩

private theorem run_wf {c : Cfg} {ops : List Op} {s : St} (h : Run c ops s) : Wf s.ents ∧ Owned s := by
  induction h with
  | nil => exact ⟨wf_init, fun _ _ h => absurd rfl h⟩
  | snoc ops s o _ _ ih => exact step_wf ih.1 ih.2 c o

/-- What an event does to one network of the set. -/
private def after (gw : List Nat) (p : Pfx) (old : Option (Option Nat)) : Op → Option (Option Nat)
  | .hna g q now v d => if gw = g ∧ p = q then some (newTimer now v d) else old
  | .expire g q _ => if gw = g ∧ p = q then none else old
  | .emptyTc a => if gw = a then none else old
  | _ => old

private theorem step_view {s : St} (hw : Wf s.ents) (hO : Owned s) (c : Cfg) (o : Op) (gw : List Nat) (p : Pfx) :
    view (step c s o).ents gw p = after gw p (view s.ents gw p) o := by
  cases o with
  | hna g q now v d =>
    show view (update c s g q now v d).ents gw p = _
    rw [(update_facts hO c g q now v d).1, view_upd]; rfl
  | expire g q now => exact view_drop hw g gw q p
  | emptyTc a => exact (emptyTc_facts hw hO c a).2.2.1 gw p
  | expireTc a =>
    show view (delTc c s a).ents gw p = _
    rw [(delTc_same c s a).1]; rfl
  | locate a =>
    show view ((locateTc c s a).getD s).ents gw p = _
    rw [(locate_facts hO c a).1]; rfl
  | midSeen m a =>
    obtain ⟨l, hl⟩ := midSeen_eq c s m a
    show view (midSeen c s m a).ents gw p = _
    rw [hl, (insertRoute_same c _ _ _ _).1]; rfl
  | midGone m a =>
    show view (midGone c s m a).ents gw p = _
    rw [(midGone_facts hO c m a).1]; rfl
  | processed => rfl

private theorem after_of_not {gw : List Nat} {p : Pfx} {o : Op} (h : ¬ Touches gw p o) (old : Option (Option Nat)) :
    after gw p old o = old := by
  cases o with
  | hna g q now v d => exact if_neg (fun hc => h ⟨hc.1.symm, hc.2.symm⟩)
  | expire g q now => exact if_neg (fun hc => h ⟨hc.1.symm, hc.2.symm⟩)
  | emptyTc a => exact if_neg (fun hc => h hc.symm)
  | _ => rfl

private theorem listed_iff {s : St} (hw : Wf s.ents) {gw : List Nat} {p : Pfx} {t : Option Nat} :
    Listed s gw p t ↔ view s.ents gw p = some t := (view_some hw).symm

/-! ### C87 -/

/-- **C87.**  At any time the HNA set contains exactly the networks that were announced and neither withdrawn (by an
empty TC) nor timed out since, each with the timer of its last announcement. -/
theorem C87_content {c : Cfg} {ops : List Op} {s : St} (h : Run c ops s) (gw : List Nat) (p : Pfx) (t : Option Nat) :
    Listed s gw p t ↔ ∃ pre now v d post, ops = pre ++ Op.hna gw p now v d :: post ∧ (∀ o ∈ post, ¬ Touches gw p o) ∧
      t = some (now + d) := by
  induction h generalizing t with
  | nil =>
    constructor
    · rintro ⟨e, he, _⟩; cases he
    · rintro ⟨pre, now, v, d, post, h1, _⟩
      exact absurd h1 (by simp)
  | snoc ops s o hrun hen ih =>
    have hw := run_wf hrun
    rw [listed_iff (step_wf hw.1 hw.2 c o).1, step_view hw.1 hw.2 c o]
    have hback : ∀ (pre post : List Op) (x : Op), ops ++ [o] = pre ++ x :: post →
        (post = [] ∧ o = x ∧ ops = pre) ∨ ∃ post', post = post' ++ [o] ∧ ops = pre ++ x :: post' := by
      intro pre post x he
      rcases List.eq_nil_or_concat post with hp | ⟨post', y, hp⟩
      · subst hp
        have := List.append_inj' he rfl
        exact Or.inl ⟨rfl, by simpa using this.2, this.1⟩
      · subst hp
        have h2 : ops ++ [o] = (pre ++ x :: post') ++ [y] := by rw [he]; simp
        have := List.append_inj' h2 rfl
        have hy : o = y := by simpa using this.2
        subst hy
        exact Or.inr ⟨post', by simp, this.1⟩
    by_cases ht : Touches gw p o
    · constructor
      · intro hv
        cases o with
        | hna g q now v d =>
          obtain ⟨rfl, rfl⟩ := ht
          simp only [after, and_self, if_true, newTimer] at hv
          have hen1 : 0 < v := hen.1
          rw [if_neg (by omega)] at hv
          exact ⟨ops, now, v, d, [], rfl, fun _ h => (by cases h), by simpa using hv.symm⟩
        | expire g q now =>
          obtain ⟨rfl, rfl⟩ := ht
          simp only [after, and_self, if_true] at hv
          cases hv
        | emptyTc a =>
          have : a = gw := ht
          subst this
          simp only [after, if_true] at hv
          cases hv
        | _ => exact absurd ht id
      · rintro ⟨pre, now, v, d, post, he, hpost, rfl⟩
        rcases hback pre post _ he with ⟨_, ho, _⟩ | ⟨post', hp, _⟩
        · subst ho
          have hen1 : 0 < v := hen.1
          simp only [after, and_self, if_true, newTimer]
          rw [if_neg (by omega)]
        · exact absurd ht (hpost o (by rw [hp]; simp))
    · rw [after_of_not ht, ← listed_iff hw.1, ih]
      constructor
      · rintro ⟨pre, now, v, d, post, he, hpost, rfl⟩
        refine ⟨pre, now, v, d, post ++ [o], by rw [he]; simp, fun x hx => ?_, rfl⟩
        rcases List.mem_append.1 hx with hx | hx
        · exact hpost x hx
        · rw [List.mem_singleton.1 hx]; exact ht
      · rintro ⟨pre, now, v, d, post, he, hpost, rfl⟩
        rcases hback pre post _ he with ⟨_, ho, _⟩ | ⟨post', hp, he'⟩
        · subst ho; exact absurd ⟨rfl, rfl⟩ ht
        · exact ⟨pre, now, v, d, post', he', fun x hx => hpost x (by rw [hp]; exact List.mem_append_left _ hx), rfl⟩

/-- **C87.**  A gateway has one entry, a network is in it once, and there is no entry without a network. -/
theorem C87_tidy {c : Cfg} {ops : List Op} {s : St} (h : Run c ops s) :
    s.ents.Pairwise (fun e f => e.gw ≠ f.gw) ∧
    ∀ e ∈ s.ents, e.nets ≠ [] ∧ e.nets.Pairwise (fun n m => n.pfx ≠ m.pfx) := by
  have hw := (run_wf h).1
  exact ⟨List.pairwise_map.1 hw.gws, fun e he => ⟨hw.nonempty e he, List.pairwise_map.1 (hw.pfxs e he)⟩⟩

/-- **C87.**  A network times out no earlier than 95 percent of the validity time after its last announcement. -/
theorem C87_kept {c : Cfg} {ops : List Op} {s : St} {gw : List Nat} {p : Pfx} {now : Nat}
    (h : Run c (ops ++ [Op.expire gw p now]) s) :
    ∃ pre t v d post, ops = pre ++ Op.hna gw p t v d :: post ∧ (∀ o ∈ post, ¬ Touches gw p o) ∧
      t ≤ now ∧ 95 * v ≤ 100 * (now - t) := by
  have key : ∀ ops', Run c ops' s → ops' = ops ++ [Op.expire gw p now] → ∃ s0, Run c ops s0 ∧ Enabled s0 (Op.expire gw p now) := by
    intro ops' hr he
    cases hr with
    | nil => exact absurd he (by simp)
    | snoc ops0 s0 o hr0 hen =>
      have h2 := List.append_inj' he rfl
      have ho : o = Op.expire gw p now := by simpa using h2.2
      subst ho
      exact ⟨s0, h2.1 ▸ hr0, hen⟩
  obtain ⟨s0, hr, t, hl, hle⟩ := key _ h rfl
  obtain ⟨pre, u, v, d, post, he, hpost, htm⟩ := (C87_content hr gw p (some t)).1 hl
  have htm : t = u + d := by simpa using htm
  have hen2 : ∀ (l : List Op) (s1 : St), Run c l s1 → ∀ a b : List Op, l = a ++ Op.hna gw p u v d :: b →
      100 * (v - d) ≤ 5 * v ∧ d ≤ v := by
    intro l s1 hr1
    induction hr1 with
    | nil => intro a b hab; exact absurd hab (by simp)
    | snoc l s1 o hr1 hen1 ih =>
      intro a b hab
      rcases List.eq_nil_or_concat b with hb | ⟨b', y, hb⟩
      · subst hb
        have h2 := List.append_inj' hab rfl
        have ho : o = Op.hna gw p u v d := by simpa using h2.2
        subst ho
        exact ⟨hen1.2.2, hen1.2.1⟩
      · subst hb
        have h2 : l ++ [o] = (a ++ Op.hna gw p u v d :: b') ++ [y] := by rw [hab]; simp
        exact ih a b' (List.append_inj' h2 rfl).1
  have h3 := hen2 ops s0 hr pre post he
  exact ⟨pre, u, v, d, post, he, hpost, by omega, by omega⟩

/-- **C87.**  One HNA message: the networks that the receiver accepts (`BuildMsg.inputHna` says which) are listed
with a fresh timer, all others are as before. -/
theorem C87_message {c : Cfg} {ops : List Op} {s : St} (h : Run c ops s) (gw : List Nat) (now vtime : Nat) (delay : Pfx → Nat)
    (hv : 0 < vtime) (evs : List BuildMsg.Ev) (g : List Nat) (q : Pfx) (t : Option Nat) :
    Listed (message c gw now vtime delay s evs) g q t ↔
      if g = gw ∧ BuildMsg.Ev.update q.net q.len ∈ evs then t = some (now + delay q) else Listed s g q t := by
  obtain ⟨hw, hO⟩ := run_wf h
  clear h
  have key : ∀ (evs : List BuildMsg.Ev) (s : St), Wf s.ents → Owned s → Wf (message c gw now vtime delay s evs).ents ∧
      view (message c gw now vtime delay s evs).ents g q =
        if g = gw ∧ BuildMsg.Ev.update q.net q.len ∈ evs then some (some (now + delay q)) else view s.ents g q := by
    intro evs
    induction evs with
    | nil => intro s hw _; exact ⟨hw, by simp [message]⟩
    | cons e evs ih =>
      intro s hw hO
      cases e with
      | update a l =>
        have hu := update_facts hO c gw { net := a, len := l } now vtime (delay { net := a, len := l })
        have hi := ih (update c s gw { net := a, len := l } now vtime (delay { net := a, len := l }))
          (by rw [hu.1]; exact wf_upd hw _ _ _) hu.2.1
        refine ⟨hi.1, ?_⟩
        show view (message c gw now vtime delay (update c s gw { net := a, len := l } now vtime (delay { net := a, len := l })) evs).ents g q = _
        rw [hi.2, hu.1, view_upd]
        by_cases hg : g = gw
        · subst hg
          by_cases hm : BuildMsg.Ev.update q.net q.len ∈ evs
          · rw [if_pos ⟨rfl, hm⟩, if_pos ⟨rfl, List.mem_cons_of_mem _ hm⟩]
          · rw [if_neg (fun hc => hm hc.2)]
            by_cases hq : q = { net := a, len := l }
            · subst hq
              rw [if_pos ⟨rfl, rfl⟩, if_pos ⟨rfl, List.mem_cons_self⟩]
              unfold newTimer
              rw [if_neg (by omega)]
            · rw [if_neg (fun hc => hq hc.2), if_neg]
              rintro ⟨_, hc⟩
              rcases List.mem_cons.1 hc with hc | hc
              · injection hc with h1 h2
                exact hq (by cases q; simp_all)
              · exact hm hc
        · rw [if_neg (fun hc => hg hc.1), if_neg (fun hc => hg hc.1), if_neg (fun hc => hg hc.1)]
      | gateway a b =>
        have hi := ih s hw hO
        refine ⟨hi.1, ?_⟩
        show view (message c gw now vtime delay s evs).ents g q = _
        rw [hi.2]; simp
      | collision a =>
        have hi := ih s hw hO
        refine ⟨hi.1, ?_⟩
        show view (message c gw now vtime delay s evs).ents g q = _
        rw [hi.2]; simp
      | own =>
        have hi := ih s hw hO
        refine ⟨hi.1, ?_⟩
        show view (message c gw now vtime delay s evs).ents g q = _
        rw [hi.2]; simp
  have hk := key evs s hw hO
  rw [listed_iff hk.1, hk.2, listed_iff hw]
  split
  · exact ⟨fun h => (by simpa using h.symm), fun h => (by rw [h])⟩
  · exact Iff.rfl

/-- IPv4, main address configured. -/
def four : Cfg := { maxplen := 32, mainSet := true }

private def g1 : List Nat := [10, 0, 0, 1]
private def g2 : List Nat := [10, 0, 0, 2]
private def lan : Pfx := { net := [192, 168, 1, 0], len := 24 }
private def lan2 : Pfx := { net := [192, 168, 2, 0], len := 24 }

/-- A history: two networks of one gateway and one of another; the first is refreshed, the second times out. -/
private def story : List Op :=
  [.hna g1 lan 1000 5000 5000, .hna g1 lan2 1000 5000 4800, .hna g2 lan 1200 5000 4900,
   .hna g1 lan 5000 5000 4750, .expire g1 lan2 5800]

private def runOps (c : Cfg) (ops : List Op) : St := ops.foldl (step c) init

private theorem run_of (c : Cfg) : ∀ (pre ops : List Op) (s : St), Run c pre s →
    (∀ k (hk : k < ops.length), Enabled ((ops.take k).foldl (step c) s) ops[k]) →
    Run c (pre ++ ops) (ops.foldl (step c) s) := by
  intro pre ops
  induction ops generalizing pre with
  | nil => intro s h _; simpa using h
  | cons o ops ih =>
    intro s h he
    have h0 := he 0 (by simp)
    have h1 := ih (pre ++ [o]) (step c s o) (Run.snoc pre s o h h0) (fun k hk => by
      have := he (k + 1) (by simpa using hk)
      simpa using this)
    simpa using h1

example : Run four story (runOps four story) :=
  run_of four [] story init Run.nil (fun k hk => by
    have hk5 : k < 5 := hk
    match k, hk5 with
    | 0, _ => exact ⟨by decide, by decide, by decide⟩
    | 1, _ => exact ⟨by decide, by decide, by decide⟩
    | 2, _ => exact ⟨by decide, by decide, by decide⟩
    | 3, _ => exact ⟨by decide, by decide, by decide⟩
    | 4, _ => exact ⟨5800, ⟨_, List.mem_cons_of_mem _ List.mem_cons_self, rfl, _, List.mem_cons_self, rfl, rfl⟩, by decide⟩)

example : (runOps four story).ents =
    [{ gw := g2, nets := [{ pfx := lan, timer := some 6100 }] }, { gw := g1, nets := [{ pfx := lan, timer := some 9750 }] }] := by
  decide

/-! ### C88 -/

private theorem host_len (c : Cfg) (a : List Nat) : (host c a).len = c.maxplen := rfl

private theorem midSeen_has {s : St} (hO : Owned s) (c : Cfg) (m a o : List Nat) (p : Pfx) :
    has (midSeen c s m a) o p ↔ has s o p ∨
      (o = m ∧ (s.tc m = true ∨ c.mainSet = true) ∧ (p = host c a ∨ (¬ s.tc m = true ∧ p = host c m))) := by
  obtain ⟨l, hl⟩ := midSeen_eq c s m a
  have hO1 : Owned { s with mids := l } := hO
  rw [hl, insertRoute_has hO1]
  constructor
  · rintro (h | ⟨h1, _, h2⟩)
    · exact Or.inl h
    · exact Or.inr ⟨h1, h2⟩
  · rintro (h | ⟨h1, h2⟩)
    · exact Or.inl h
    · exact Or.inr ⟨h1, Nat.le_refl _, h2⟩

private theorem run_snoc_mem {ops : List Op} {o x : Op} (h : x ∈ ops) : x ∈ ops ++ [o] := List.mem_append_left _ h

/-- **C88** (no route without announcement).  A prefix hangs off a topology entry only if it is the address of that
host, or a network that the host announces at present, or — and here the full statement, which asks for an alias that
is registered at present, is false (`C88_alias_route_stays`) — an alias that it announced at some time. -/
theorem C88_no_stale_partial {c : Cfg} {ops : List Op} {s : St} (h : Run c ops s) (o : List Nat) (p : Pfx)
    (hp : s.path o p ≠ none) :
    s.tc o = true ∧ p.len ≤ c.maxplen ∧
      (p = { net := o, len := c.maxplen } ∨ (∃ t, Listed s o p t) ∨
       (p.len = c.maxplen ∧ Op.midSeen o p.net ∈ ops)) := by
  refine ⟨(run_wf h).2 o p hp, ?_⟩
  suffices hs : p.len ≤ c.maxplen ∧ (p = host c o ∨ (∃ t, view s.ents o p = some t) ∨ (p.len = c.maxplen ∧ Op.midSeen o p.net ∈ ops)) by
    refine ⟨hs.1, hs.2.imp id (Or.imp (fun ⟨t, ht⟩ => ⟨t, (listed_iff (run_wf h).1).2 ht⟩) id)⟩
  have hp' : has s o p := hp
  clear hp
  induction h generalizing o p with
  | nil => exact absurd rfl hp'
  | snoc ops s x hrun hen ih =>
    obtain ⟨hw, hO⟩ := run_wf hrun
    have hv := step_view hw hO c x o p
    have keep : has s o p → ¬ Touches o p x → p.len ≤ c.maxplen ∧
        (p = host c o ∨ (∃ t, view (step c s x).ents o p = some t) ∨ (p.len = c.maxplen ∧ Op.midSeen o p.net ∈ ops ++ [x])) := by
      intro h1 h2
      have h3 := ih o p h1
      rw [hv, after_of_not h2]
      exact ⟨h3.1, h3.2.imp id (Or.imp id (fun h4 => ⟨h4.1, run_snoc_mem h4.2⟩))⟩
    cases x with
    | hna g q now v d =>
      rcases (update_facts hO c g q now v d).2.2 o p |>.1 hp' with h1 | ⟨rfl, h2, _, h3⟩
      · by_cases ht : Touches o p (.hna g q now v d)
        · refine ⟨(ih o p h1).1, Or.inr (Or.inl ⟨newTimer now v d, ?_⟩)⟩
          rw [hv]
          exact if_pos ⟨ht.1.symm, ht.2.symm⟩
        · exact keep h1 ht
      · rcases h3 with rfl | ⟨_, rfl⟩
        · refine ⟨h2, Or.inr (Or.inl ⟨newTimer now v d, ?_⟩)⟩
          rw [hv]
          exact if_pos ⟨rfl, rfl⟩
        · exact ⟨Nat.le_refl _, Or.inl rfl⟩
    | expire g q now =>
      have h1 := (deleteRoute_has hO c q p g o).1 hp'
      have h2 := ih o p h1.1
      exact keep h1.1 (fun ht => h1.2 ⟨ht.1.symm, ht.2.symm, by rw [ht.2]; exact h2.1⟩)
    | emptyTc a =>
      have h1 := ((emptyTc_facts hw hO c a).2.2.2 o p).1 hp'
      exact keep h1.1 (fun ht => h1.2 (Eq.symm ht))
    | expireTc a => exact keep ((delTc_has hO c a o p).1 hp').1 id
    | locate a =>
      rcases ((locate_facts hO c a).2.2 o p).1 hp' with h1 | ⟨rfl, _, _, rfl⟩
      · exact keep h1 id
      · exact ⟨Nat.le_refl _, Or.inl rfl⟩
    | midSeen m a =>
      rcases (midSeen_has hO c m a o p).1 hp' with h1 | ⟨rfl, _, rfl | ⟨_, rfl⟩⟩
      · exact keep h1 id
      · exact ⟨Nat.le_refl _, Or.inr (Or.inr ⟨rfl, by simp [host]⟩)⟩
      · exact ⟨Nat.le_refl _, Or.inl rfl⟩
    | midGone m a => exact keep ((midGone_facts hO c m a).2.2.2.1 o p hp') id
    | processed => exact keep hp' id

/-- **C88** (every announcement has its route), for networks that are not single hosts and as long as the topology
entry of the gateway does not time out.  Without the two conditions the statement is false: `C88_expiry_loses_route`,
`C88_host_route_lost`. -/
theorem C88_route_partial {c : Cfg} {ops : List Op} {s : St} (h : Run c ops s) (hm : c.mainSet = true)
    (gw : List Nat) (hno : Op.expireTc gw ∉ ops) (p : Pfx) (t : Option Nat) (hl : Listed s gw p t) (hlen : p.len < c.maxplen) :
    s.path gw p ≠ none := by
  rw [listed_iff (run_wf h).1] at hl
  suffices hs : has s gw p from hs
  induction h generalizing t with
  | nil => cases hl
  | snoc ops s x hrun hen ih =>
    obtain ⟨hw, hO⟩ := run_wf hrun
    have hv := step_view hw hO c x gw p
    rw [hv] at hl
    have ih' := fun t' ht' => ih (fun hc => hno (run_snoc_mem hc)) t' ht'
    cases x with
    | hna g q now v d =>
      refine ((update_facts hO c g q now v d).2.2 gw p).2 ?_
      by_cases ht : gw = g ∧ p = q
      · exact Or.inr ⟨ht.1, by rw [← ht.2]; omega, Or.inr hm, Or.inl ht.2⟩
      · exact Or.inl (ih' t (by rw [← hl]; exact (if_neg ht).symm))
    | expire g q now =>
      by_cases ht : gw = g ∧ p = q
      · simp only [after] at hl; rw [if_pos ht] at hl; cases hl
      · refine (deleteRoute_has hO c q p g gw).2 ⟨ih' t (by rw [← hl]; exact (if_neg ht).symm), fun hc => ht ⟨hc.1, hc.2.1⟩⟩
    | emptyTc a =>
      by_cases ht : gw = a
      · simp only [after] at hl; rw [if_pos ht] at hl; cases hl
      · exact ((emptyTc_facts hw hO c a).2.2.2 gw p).2 ⟨ih' t (by rw [← hl]; exact (if_neg ht).symm), ht⟩
    | expireTc a =>
      exact (delTc_has hO c a gw p).2 ⟨ih' t hl, fun hc => hno (by rw [hc]; simp)⟩
    | locate a => exact ((locate_facts hO c a).2.2 gw p).2 (Or.inl (ih' t hl))
    | midSeen m a => exact (midSeen_has hO c m a gw p).2 (Or.inl (ih' t hl))
    | midGone m a =>
      refine ((midGone_facts hO c m a).2.2.2.2 gw p (fun hc => ?_)).2 (ih' t hl)
      rw [hc.2] at hlen
      exact absurd hlen (by simp [host])
    | processed => exact ih' t hl

/-- **C88.**  Right after an announcement its route is there, whatever happened before. -/
theorem C88_announced {c : Cfg} {ops : List Op} {s : St} (h : Run c ops s) (hm : c.mainSet = true)
    (gw : List Nat) (p : Pfx) (now v d : Nat) (hlen : p.len ≤ c.maxplen) :
    (step c s (.hna gw p now v d)).path gw p ≠ none :=
  ((update_facts (run_wf h).2 c gw p now v d).2.2 gw p).2 (Or.inr ⟨rfl, hlen, Or.inr hm, Or.inl rfl⟩)

private theorem midGone_mids (c : Cfg) (s : St) (m a : List Nat) : (midGone c s m a).mids = s.mids.erase (a, m) := by
  unfold midGone
  split
  · exact (deleteRoute_same c _ _ _).2.2.1
  · rename_i h
    rw [List.erase_of_not_mem (by simpa using h)]

private theorem foldl_midGone_count (c : Cfg) (m : List Nat) (L : List (List Nat × List Nat)) (hL : ∀ x ∈ L, x.2 = m) (s : St) (y : List Nat × List Nat) :
    (L.foldl (fun s x => midGone c s m x.1) s).mids.count y = s.mids.count y - L.count y := by
  induction L generalizing s with
  | nil => rfl
  | cons x L ih =>
    rw [List.foldl_cons, ih (fun z hz => hL z (List.mem_cons_of_mem _ hz)), midGone_mids]
    have hx : (x.1, m) = x := by rw [← hL x List.mem_cons_self]
    rw [hx, List.count_erase, List.count_cons]
    by_cases hxy : x = y
    · subst hxy; simp only [beq_self_eq_true, if_true]; omega
    · have : (x == y) = false := by simpa using hxy
      simp only [this]; simp

/-- **C88.**  An empty TC withdraws everything of its originator — networks, aliases, paths and topology entry — and
nothing of anybody else. -/
theorem C88_withdrawn {c : Cfg} {ops : List Op} {s : St} (h : Run c ops s) (a o : List Nat) (p : Pfx) (t : Option Nat) (b : List Nat) :
    (Listed (step c s (.emptyTc a)) o p t ↔ Listed s o p t ∧ o ≠ a) ∧
    ((step c s (.emptyTc a)).path o p ≠ none ↔ s.path o p ≠ none ∧ o ≠ a) ∧
    ((b, o) ∈ (step c s (.emptyTc a)).mids ↔ (b, o) ∈ s.mids ∧ o ≠ a) := by
  obtain ⟨hw, hO⟩ := run_wf h
  have hf := emptyTc_facts hw hO c a
  refine ⟨?_, hf.2.2.2 o p, ?_⟩
  · rw [listed_iff (step_wf hw hO c (.emptyTc a)).1, listed_iff hw]
    show view (emptyTc c s a).ents o p = some t ↔ _
    rw [hf.2.2.1]
    by_cases ho : o = a
    · rw [if_pos ho]; exact ⟨fun h => (by cases h), fun h => absurd ho h.2⟩
    · rw [if_neg ho]; exact ⟨fun h => ⟨h, ho⟩, fun h => h.1⟩
  · have hm : (step c s (.emptyTc a)).mids = ((s.mids.filter (fun x => x.2 == a)).foldl (fun s x => midGone c s a x.1) s).mids := by
      show (delTc c _ a).mids = _
      rw [(delTc_same c _ a).2.1]
      unfold cleanupHna
      split
      · rfl
      · rename_i e _
        exact (foldl_deleteNet (foldl_midGone hO c a _).2.1 c a e.nets).2.2.2.2.1
    have hc := foldl_midGone_count c a (s.mids.filter (fun x => x.2 == a)) (fun x hx => by simpa using (List.mem_filter.1 hx).2) s (b, o)
    rw [hm, ← List.count_pos_iff, hc, ← List.count_pos_iff (l := s.mids)]
    by_cases ho : o = a
    · rw [List.count_filter (by simpa using ho)]
      exact ⟨fun h => by omega, fun h => absurd ho h.2⟩
    · rw [List.count_eq_zero_of_not_mem (l := s.mids.filter (fun x => x.2 == a)) (fun hx => ho (by simpa using (List.mem_filter.1 hx).2))]
      exact ⟨fun h => ⟨by omega, ho⟩, fun h => by omega⟩

example : ((step four (runOps four (story ++ [.midSeen g1 [10, 0, 1, 1], .midSeen g2 [10, 0, 1, 2]])) (.emptyTc g1)).mids,
    (step four (runOps four story) (.emptyTc g1)).ents.length) = ([([10, 0, 1, 2], g2)], 1) := by decide

example : ((runOps four story).path g1 lan, (runOps four story).path g1 lan2, (runOps four story).path g2 lan,
    (runOps four story).path g2 (host four g2)) = (some .hna, none, some .hna, some .int) := by decide

/-- **C88 fails: an expired topology entry takes the routes of valid announcements with it.**  The gateway announced a
network for 60 s; its topology entry timed out 10 s later and came back right away.  The network is still listed, with
50 s to go, but has no route. -/
theorem C88_expiry_loses_route :
    ∃ ops s gw p t, Run four ops s ∧ Listed s gw p (some t) ∧ 55000 ≤ t ∧ p.len < 32 ∧ s.tc gw = true ∧ s.path gw p = none := by
  refine ⟨[.hna g1 lan 1000 60000 60000, .expireTc g1, .locate g1], _, g1, lan, 61000,
    run_of four [] _ init Run.nil (fun k hk => ?_), ⟨_, List.mem_cons_self, rfl, _, List.mem_cons_self, rfl, rfl⟩, by decide, by decide, by decide, by decide⟩
  have hk3 : k < 3 := hk
  match k, hk3 with
  | 0, _ => exact ⟨by decide, by decide, by decide⟩
  | 1, _ => trivial
  | 2, _ => trivial

/-- **C88 fails: the end of an announcement of a host takes the route to the host itself with it.**  A host announces
its own address as a network and stops.  Its topology entry is there all the time, but the path to its address, which
the entry had from the start, is deleted and nothing brings it back. -/
theorem C88_host_route_lost :
    ∃ ops s a, Run four ops s ∧ (∀ x, Op.expireTc x ∉ ops ∧ Op.emptyTc x ∉ ops) ∧ s.tc a = true ∧
      s.path a { net := a, len := 32 } = none ∧ (step four s (.locate a)).path a { net := a, len := 32 } = none := by
  refine ⟨[.locate g1, .hna g1 (host four g1) 1000 60000 60000, .expire g1 (host four g1) 61000], _, g1,
    run_of four [] _ init Run.nil (fun k hk => ?_), fun x => ⟨by simp, by simp⟩, by decide, by decide, by decide⟩
  have hk3 : k < 3 := hk
  match k, hk3 with
  | 0, _ => trivial
  | 1, _ => exact ⟨by decide, by decide, by decide⟩
  | 2, _ => exact ⟨61000, ⟨_, List.mem_cons_self, rfl, _, List.mem_cons_self, rfl, rfl⟩, by decide⟩

/-- **C88 fails: the route to an alias that two hosts announced stays.**  The second host gets a path to the alias
(mid_set.c 621), but the alias is registered with the first one only.  So no event about aliases removes the path of
the second host again. -/
theorem C88_alias_route_stays :
    ∃ ops s o a, Run four ops s ∧ s.path o { net := a, len := 32 } ≠ none ∧ s.mids = [] ∧ s.ents = [] ∧ o ≠ a ∧
      ∀ m b, (step four s (.midGone m b)).path o { net := a, len := 32 } ≠ none := by
  refine ⟨[.midSeen g1 [10, 0, 1, 1], .midSeen g2 [10, 0, 1, 1], .midGone g1 [10, 0, 1, 1]], _, g2, [10, 0, 1, 1],
    run_of four [] _ init Run.nil (fun k hk => ?_), by decide, by decide, by decide, by decide, fun m b => ?_⟩
  · have hk3 : k < 3 := hk
    match k, hk3 with
    | 0, _ => trivial
    | 1, _ => trivial
    | 2, _ => trivial
  · show (midGone four _ m b).path g2 _ ≠ none
    unfold midGone
    rw [if_neg (by
      rw [show (List.foldl (step four) init [.midSeen g1 [10, 0, 1, 1], .midSeen g2 [10, 0, 1, 1], .midGone g1 [10, 0, 1, 1]]).mids = [] by decide]
      simp)]
    decide

/-! ### C89 -/

/-- Flags are not lost, and without the flag no path came or went. -/
private def Quiet (s s' : St) : Prop :=
  (s.chHna = true → s'.chHna = true) ∧ (s'.chHna = true ∨ ∀ o p, has s' o p ↔ has s o p)

private theorem quiet_refl (s : St) : Quiet s s := ⟨id, Or.inr fun _ _ => Iff.rfl⟩

private theorem quiet_trans {a b d : St} (h1 : Quiet a b) (h2 : Quiet b d) : Quiet a d := by
  refine ⟨fun h => h2.1 (h1.1 h), ?_⟩
  rcases h2.2 with h | h
  · exact Or.inl h
  · rcases h1.2 with h3 | h3
    · exact Or.inl (h2.1 h3)
    · exact Or.inr (fun o p => (h o p).trans (h3 o p))

private theorem quiet_add (s : St) (o : List Nat) (p : Pfx) (k : Origin) : Quiet s (addPath s o p k) := by
  unfold addPath
  cases s.path o p with
  | none => exact ⟨fun _ => rfl, Or.inl rfl⟩
  | some _ => exact quiet_refl s

private theorem quiet_addTc {c : Cfg} {s s' : St} {a : List Nat} (h : addTc c s a = some s') : s'.chHna = true := by
  unfold addTc at h
  split at h
  · cases h
    unfold addPath
    simp
  · cases h

private theorem quiet_locate {c : Cfg} {s s' : St} {a : List Nat} (h : locateTc c s a = some s') : Quiet s s' := by
  unfold locateTc at h
  split at h
  · cases h; exact quiet_refl s
  · have := quiet_addTc h; exact ⟨fun _ => this, Or.inl this⟩

private theorem quiet_insert (c : Cfg) (s : St) (p : Pfx) (o : List Nat) (k : Origin) : Quiet s (insertRoute c s p o k) := by
  unfold insertRoute
  split
  · exact quiet_refl s
  · split
    · exact quiet_refl s
    · rename_i s1 h1; exact quiet_trans (quiet_locate h1) (quiet_add s1 o p k)

private theorem quiet_delete (c : Cfg) (s : St) (p : Pfx) (o : List Nat) : Quiet s (deleteRoute c s p o) := by
  unfold deleteRoute delPath
  split
  · exact quiet_refl s
  · split
    · split
      · exact quiet_refl s
      · exact ⟨fun _ => rfl, Or.inl rfl⟩
    · exact quiet_refl s

private theorem quiet_midGone (c : Cfg) (s : St) (m a : List Nat) : Quiet s (midGone c s m a) := by
  unfold midGone
  split
  · exact quiet_delete c { s with mids := s.mids.erase (a, m) } (host c a) m
  · exact quiet_refl s

private theorem quiet_foldl {α : Type} {f : St → α → St} (hf : ∀ s x, Quiet s (f s x)) (l : List α) (s : St) : Quiet s (l.foldl f s) := by
  induction l generalizing s with
  | nil => exact quiet_refl s
  | cons x l ih => exact quiet_trans (hf s x) (ih (f s x))

private theorem quiet_cleanup (c : Cfg) (s : St) (a : List Nat) : Quiet s (cleanupHna c s a) := by
  unfold cleanupHna
  split
  · exact quiet_refl s
  · exact quiet_foldl (f := fun s (n : Net) => deleteNet c s a n.pfx) (fun s (n : Net) => (quiet_delete c s n.pfx a : Quiet s (deleteNet c s a n.pfx))) _ s

/-- **C89.**  Whenever a prefix of some topology entry comes or goes, the routes are marked for recalculation — except
possibly when an empty TC arrives from a host whose own address has lost its path, see `C89_unflagged`. -/
theorem C89_flagged_partial {c : Cfg} {ops : List Op} {s : St} (h : Run c ops s) (x : Op) (hx : x ≠ .processed)
    (hown : ∀ a, x = .emptyTc a → s.path a { net := a, len := c.maxplen } ≠ none) (o : List Nat) (p : Pfx)
    (hch : ((step c s x).path o p).isSome ≠ (s.path o p).isSome) :
    (step c s x).chHna = true ∨ (step c s x).chTopo = true := by
  have hO := (run_wf h).2
  have hch2 : ¬ (has (step c s x) o p ↔ has s o p) := by
    intro hc
    unfold has at hc
    apply hch
    cases h1 : (step c s x).path o p <;> cases h2 : s.path o p <;> rw [h1, h2] at hc <;> simp at hc ⊢
  have fin : Quiet s (step c s x) → (step c s x).chHna = true := fun hq => hq.2.elim id (fun h3 => absurd (h3 o p) hch2)
  cases x with
  | hna g q now v d =>
    refine Or.inl (fin ?_)
    show Quiet s (update c s g q now v d)
    unfold update
    refine quiet_trans (b := _) ?_ (quiet_insert c _ q g .hna)
    refine ⟨fun hs => ?_, Or.inr fun _ _ => Iff.rfl⟩
    show (s.chHna || !known s.ents g q) = true
    rw [hs]; rfl
  | expire g q now => exact Or.inl (fin (quiet_delete c s q g))
  | emptyTc a =>
    refine Or.inl ?_
    have hp := hown a rfl
    have hq := quiet_trans (quiet_foldl (fun s (x : List Nat × List Nat) => quiet_midGone c s a x.1) (s.mids.filter (fun x => x.2 == a)) s)
      (quiet_cleanup c _ a)
    obtain ⟨s1, hs1⟩ : ∃ s1, s1 = cleanupHna c ((s.mids.filter (fun x => x.2 == a)).foldl (fun s x => midGone c s a x.1) s) a := ⟨_, rfl⟩
    rw [← hs1] at hq
    have hE : step c s (.emptyTc a) = delTc c s1 a := by rw [hs1]; rfl
    by_cases ht1 : s1.tc a = true
    · rw [hE]
      unfold delTc
      rw [if_pos ht1]
      show (deleteRoute c s1 (host c a) a).chHna = true
      rcases hq.2 with h1 | h1
      · exact (quiet_delete c s1 (host c a) a).1 h1
      · have h2 := (h1 a (host c a)).2 hp
        unfold deleteRoute delPath
        rw [if_neg (by simp [host]), if_pos ht1]
        cases h3 : s1.path a (host c a) with
        | none => exact absurd h3 h2
        | some _ => rfl
    · have hE2 : delTc c s1 a = s1 := by unfold delTc; rw [if_neg ht1]
      exact fin (by rw [hE, hE2]; exact hq)
  | expireTc a => exact Or.inr rfl
  | locate a =>
    refine Or.inl (fin ?_)
    show Quiet s ((locateTc c s a).getD s)
    cases hl : locateTc c s a with
    | none => exact quiet_refl s
    | some s1 => exact quiet_locate hl
  | midSeen m a =>
    obtain ⟨l, hl⟩ := midSeen_eq c s m a
    refine Or.inl (fin ?_)
    show Quiet s (midSeen c s m a)
    rw [hl]
    exact quiet_insert c { s with mids := l } _ _ _
  | midGone m a => exact Or.inl (fin (quiet_midGone c s m a))
  | processed => exact absurd rfl hx

/-- **C89.**  A network that was not listed marks the routes for recalculation. -/
theorem C89_new_network {c : Cfg} {ops : List Op} {s : St} (h : Run c ops s) (gw : List Nat) (p : Pfx) (now v d : Nat)
    (hnew : ∀ t, ¬ Listed s gw p t) : (step c s (.hna gw p now v d)).chHna = true := by
  have hw := (run_wf h).1
  have hk : known s.ents gw p = false := by
    cases hv : view s.ents gw p with
    | some t => exact absurd ((listed_iff hw).2 hv) (hnew t)
    | none =>
      unfold view at hv
      unfold known
      cases hl : lookupGw s.ents gw with
      | none => rfl
      | some e =>
        rw [hl, Option.bind_some] at hv
        cases hn : lookupNet e.nets p with
        | none => simp only [hn]; rfl
        | some n => rw [hn] at hv; cases hv
  show (update c s gw p now v d).chHna = true
  unfold update
  refine (quiet_insert c _ p gw .hna).1 ?_
  show (s.chHna || !known s.ents gw p) = true
  rw [hk]; simp

example : (runOps four (story.take 4 ++ [.processed])).chHna = false ∧
    (step four (runOps four (story.take 4 ++ [.processed])) (.expire g1 lan2 5800)).chHna = true ∧
    (step four (runOps four (story.take 4 ++ [.processed])) (.hna g1 lan 5500 5000 5000)).chHna = false := by decide

/-- **C89 fails: an empty TC can delete a prefix without marking anything.**  The host has lost the path to its own
address (`C88_host_route_lost`) and has a path to an alias that belongs to another host (`C88_alias_route_stays`).
The empty TC deletes that path, and neither flag is set, so the route stays in the routing table. -/
theorem C89_unflagged :
    ∃ ops s o p, Run four ops s ∧ s.chHna = false ∧ s.chTopo = false ∧ s.path o p ≠ none ∧
      (step four s (.emptyTc o)).path o p = none ∧ (step four s (.emptyTc o)).chHna = false ∧
      (step four s (.emptyTc o)).chTopo = false := by
  refine ⟨[.hna g2 (host four g2) 1000 60000 60000, .expire g2 (host four g2) 61000, .midSeen g1 [10, 0, 1, 1],
      .midSeen g2 [10, 0, 1, 1], .processed], _, g2, host four [10, 0, 1, 1],
    run_of four [] _ init Run.nil (fun k hk => ?_), by decide, by decide, by decide, by decide, by decide, by decide⟩
  have hk5 : k < 5 := hk
  match k, hk5 with
  | 0, _ => exact ⟨by decide, by decide, by decide⟩
  | 1, _ => exact ⟨61000, ⟨_, List.mem_cons_self, rfl, _, List.mem_cons_self, rfl, rfl⟩, by decide⟩
  | 2, _ => trivial
  | 3, _ => trivial
  | 4, _ => trivial

end Verif.Hna
