import Verif.OverallModel
/-
C128: the choice between the egress links and the smart gateway, its announcement and its
routes.
-/
namespace Verif.Overall

open Egress (Link determine int64Max)

/-! ### Specification -/

/-- The smart gateway can be used. -/
def UsableGw (w : World) (g : Gw) : Prop := w.gw = some g ∧ w.allDown = false ∧ g.cost < int64Max

/-- The best egress link (C55) is the best link. -/
def EgressBest (w : World) (l : Link) : Prop := determine w.links = some l ∧ ∀ g, UsableGw w g → l.cost ≤ g.cost

/-- The smart gateway is the best link. -/
def GwBest (w : World) (g : Gw) : Prop := UsableGw w g ∧ ∀ l, determine w.links = some l → g.cost < l.cost

/-- There is no link. -/
def NoLink (w : World) : Prop := determine w.links = none ∧ ∀ g, ¬ UsableGw w g

/-- The route that leads over the best link. -/
def Leads (w : World) (r : Option Route) : Prop :=
  (∃ l, EgressBest w l ∧ r = some ⟨l.idx, l.gw⟩) ∨ (∃ g, GwBest w g ∧ r = some ⟨g.tun, none⟩) ∨ (NoLink w ∧ r = none)

/-- Links have identities, costs are in range. -/
structure Sane (w : World) : Prop where
  ids : (w.links.map (fun l => l.id)).Nodup
  costs : ∀ l ∈ w.links, l.cost ≤ int64Max
  gwCost : ∀ g, w.gw = some g → g.cost ≤ int64Max

/-- The caller says what has changed since `w`. -/
structure Told (w : World) (e : Ev) : Prop where
  sane : Sane e.w
  links : e.egressChanged = false → e.w.links = w.links ∧ e.w.bw = w.bw
  gw : e.olsrChanged = false → e.w.gw = w.gw
  dirty : e.dirty = false → ∀ l l', determine w.links = some l → determine e.w.links = some l' → l.id = l'.id →
    l.cost = l'.cost ∧ e.w.bw l.id = w.bw l.id

/-- The operating system follows: a route that is wanted can be made and one that is not
wanted any more can be removed or is gone; the index and the gateway of the best link are
not changed while it stays the best. -/
structure Follows (w : World) (e : Ev) : Prop where
  add : ∀ r, Leads e.w (some r) → r.idx ≠ 0 ∧ e.os.isUp r.idx = true ∧ e.os.accepts r = true ∧
    (Leads w (some r) → e.gone r.idx = false)
  del : ∀ r, Leads w (some r) → Leads e.w none → e.os.isUp r.idx = true ∨ e.gone r.idx = true
  stay : ∀ l l', EgressBest w l → EgressBest e.w l' → l.id = l'.id → l.idx = l'.idx ∧ l.gw = l'.gw

/-- The world after the events. -/
def worldAfter (w : World) (l : List Ev) : World := l.foldl (fun _ e => e.w) w

def ToldAll (w : World) (l : List Ev) : Prop := ∀ pre e post, l = pre ++ e :: post → Told (worldAfter w pre) e
def FollowsAll (w : World) (l : List Ev) : Prop := ∀ pre e post, l = pre ++ e :: post → Follows (worldAfter w pre) e

/-- The same at startup. -/
def StartOk (e : Ev) : Prop :=
  ∀ r, Leads e.w (some r) → r.idx ≠ 0 ∧ e.os.isUp r.idx = true ∧ e.os.accepts r = true

/-! ### The choice -/

private theorem better_mem (l : List Link) : ∀ f : Link, l.foldl Egress.better f ∈ f :: l := by
  induction l with
  | nil => intro f; exact List.mem_cons_self
  | cons y l ih =>
    intro f
    rw [List.foldl_cons]
    unfold Egress.better
    split
    · exact List.mem_cons_of_mem _ (ih y)
    · rcases List.mem_cons.1 (ih f) with h | h
      · have h' : List.foldl Egress.better f l = f := h
        show List.foldl Egress.better f l ∈ _
        rw [h']; exact List.mem_cons_self
      · exact List.mem_cons_of_mem _ (List.mem_cons_of_mem _ h)

private theorem determine_some (links : List Link) (b : Link) (h : determine links = some b) :
    b ∈ links ∧ b.cost ≠ int64Max := by
  cases links with
  | nil => cases h
  | cons f l =>
    simp only [determine] at h
    split at h
    · cases h
    · rename_i hc
      injection h with h
      rw [← h]
      exact ⟨better_mem l f, fun e => hc (Or.inr e)⟩

private theorem find_id (links : List Link) (h : (links.map (fun l => l.id)).Nodup) (b : Link) (hb : b ∈ links) :
    links.find? (fun l => decide (l.id = b.id)) = some b := by
  induction links with
  | nil => cases hb
  | cons a l ih =>
    rw [List.map_cons, List.nodup_cons] at h
    rw [List.find?_cons]
    rcases List.mem_cons.1 hb with e | hb
    · rw [e, decide_eq_true rfl]
    · have hne : a.id ≠ b.id := by
        intro e
        exact h.1 (by rw [e]; exact List.mem_map.2 ⟨b, hb, rfl⟩)
      rw [decide_eq_false hne]
      exact ih h.2 hb

private theorem live_determine (w : World) (h : Sane w) : live w ((determine w.links).map (fun l => l.id)) = determine w.links := by
  cases hd : determine w.links with
  | none => rfl
  | some b => exact find_id _ h.ids b (determine_some _ _ hd).1

private theorem usable_iff (w : World) (h : Sane w) : (∃ g, UsableGw w g ∧ olsrCost w = g.cost) ∨ ((∀ g, ¬ UsableGw w g) ∧ olsrCost w = int64Max) := by
  unfold olsrCost
  cases hg : w.gw with
  | none => exact Or.inr ⟨fun g hu => (by have h1 := hu.1; rw [hg] at h1; cases h1), rfl⟩
  | some g =>
    simp only []
    cases hd : w.allDown with
    | true =>
      rw [if_pos rfl]
      exact Or.inr ⟨fun g hu => (by have h1 := hu.2.1; rw [hd] at h1; cases h1), rfl⟩
    | false =>
      rw [if_neg (by decide)]
      by_cases hc : g.cost < int64Max
      · exact Or.inl ⟨g, ⟨hg, hd, hc⟩, rfl⟩
      · have := h.gwCost g hg
        refine Or.inr ⟨fun g' hu => ?_, by omega⟩
        have h1 := hu.1
        rw [hg] at h1
        injection h1 with h1
        have := hu.2.2
        rw [← h1] at this
        exact hc this

private theorem usable_unique (w : World) (g g' : Gw) (h : UsableGw w g) (h' : UsableGw w g') : g = g' := by
  have h1 := h.1
  have h2 := h'.1
  rw [h1] at h2
  injection h2

/-- What the choice is, in three cases. -/
private theorem overall_cases (w : World) (h : Sane w) :
    (∃ l, EgressBest w l ∧ overall (determine w.links) w = .egress l.id) ∨
    (∃ g, GwBest w g ∧ overall (determine w.links) w = .olsr g.id g.tun) ∨
    (NoLink w ∧ overall (determine w.links) w = .none) := by
  cases hd : determine w.links with
  | none =>
    rcases usable_iff w h with ⟨g, hg, hc⟩ | ⟨hg, hc⟩
    · have := hg.2.2
      refine Or.inr (Or.inl ⟨g, ⟨hg, fun l hl => by rw [hd] at hl; cases hl⟩, ?_⟩)
      unfold overall
      rw [hc]
      rw [show egressCost none = int64Max from rfl]
      rw [if_neg (by omega), if_neg (by omega), hg.1]
    · refine Or.inr (Or.inr ⟨⟨hd, hg⟩, ?_⟩)
      unfold overall
      rw [hc]
      rw [show egressCost none = int64Max from rfl]
      rw [if_pos (by omega)]
  | some l =>
    obtain ⟨hm, hne⟩ := determine_some _ _ hd
    have hle := h.costs l hm
    rcases usable_iff w h with ⟨g, hg, hc⟩ | ⟨hg, hc⟩
    · have hlt := hg.2.2
      by_cases hb : l.cost ≤ g.cost
      · refine Or.inl ⟨l, ⟨hd, fun g' hg' => by rw [usable_unique w g' g hg' hg]; exact hb⟩, ?_⟩
        unfold overall
        rw [hc]
        rw [show egressCost (some l) = l.cost from rfl]
        rw [if_neg (by omega), if_pos hb]
      · refine Or.inr (Or.inl ⟨g, ⟨hg, fun l' hl' => ?_⟩, ?_⟩)
        · rw [hd] at hl'
          injection hl' with hl'
          rw [← hl']; omega
        · unfold overall
          rw [hc]
          rw [show egressCost (some l) = l.cost from rfl]
          rw [if_neg (by omega), if_neg hb, hg.1]
    · refine Or.inl ⟨l, ⟨hd, fun g' hg' => absurd hg' (hg g')⟩, ?_⟩
      unfold overall
      rw [hc]
      rw [show egressCost (some l) = l.cost from rfl]
      rw [if_neg (by omega), if_pos hle]

private theorem egress_gw (w : World) (l : Link) (g : Gw) (h1 : EgressBest w l) (h2 : GwBest w g) : False := by
  have := h1.2 g h2.1
  have := h2.2 l h1.1
  omega

private theorem egress_no (w : World) (l : Link) (h1 : EgressBest w l) (h2 : NoLink w) : False := by
  have := h1.1
  rw [h2.1] at this
  cases this

private theorem gw_no (w : World) (g : Gw) (h1 : GwBest w g) (h2 : NoLink w) : False := h2.2 g h1.1

private theorem egress_unique (w : World) (l l' : Link) (h : EgressBest w l) (h' : EgressBest w l') : l = l' := by
  have h1 := h.1
  have h2 := h'.1
  rw [h1] at h2
  injection h2

private theorem overall_congr (be be' : Option Link) (w w' : World)
    (hb : be.map (fun l => (l.id, l.cost)) = be'.map (fun l => (l.id, l.cost))) (hg : w.gw = w'.gw) (ha : w.allDown = w'.allDown) :
    overall be w = overall be' w' := by
  have ho : olsrCost w = olsrCost w' := by unfold olsrCost; rw [hg, ha]
  cases be with
  | none =>
    cases be' with
    | none => unfold overall; rw [ho, hg]
    | some l => cases hb
  | some l =>
    cases be' with
    | none => cases hb
    | some l' =>
      have hb : some (l.id, l.cost) = some (l'.id, l'.cost) := hb
      injection hb with hb
      injection hb with h1 h2
      unfold overall
      rw [show egressCost (some l) = l.cost from rfl, show egressCost (some l') = l'.cost from rfl, ho, hg, h2]
      simp only [h1]

private structure Inv (w : World) (s : St) : Prop where
  sane : Sane w
  be : s.be = (determine w.links).map (fun l => l.id)
  allDown : s.allDown = w.allDown
  best : s.best = overall (determine w.links) w
  ann : s.ann = match determine w.links with | some l => w.bw l.id | none => (0, 0)

private theorem newBe_eq (force : Bool) (w : World) (s : St) (e : Ev) (h : s.be = (determine w.links).map (fun l => l.id))
    (hl : force = false → e.egressChanged = false → e.w.links = w.links) :
    newBe force s e = (determine e.w.links).map (fun l => l.id) := by
  unfold newBe
  by_cases hc : e.egressChanged = true ∨ force = true
  · rw [if_pos hc]
  · rw [if_neg hc, h, hl (by cases force <;> simp at hc ⊢) (by cases he : e.egressChanged <;> simp [he] at hc ⊢)]

private theorem inv_step (w : World) (s : St) (e : Ev) (h : Inv w s) (ht : Told w e) : Inv e.w (step false s e) := by
  have hnb := newBe_eq false w s e h.be (fun _ he => (ht.links he).1)
  unfold step
  by_cases hskip : e.egressChanged = false ∧ oCh s e = false ∧ false = false
  · rw [if_pos hskip]
    obtain ⟨h1, h2, _⟩ := hskip
    unfold oCh at h2
    rw [Bool.or_eq_false_iff] at h2
    obtain ⟨h2, h3⟩ := h2
    have h3 : e.w.allDown = s.allDown := Decidable.byContradiction (of_decide_eq_false h3)
    obtain ⟨hl, hbw⟩ := ht.links h1
    have hg := ht.gw h2
    refine ⟨ht.sane, by rw [hl]; exact h.be, h3.symm, ?_, ?_⟩
    · rw [hl]
      exact h.best.trans (overall_congr _ _ _ _ rfl hg.symm (by rw [h3, h.allDown]))
    · rw [hl, hbw]; exact h.ann
  · rw [if_neg hskip]
    have hsame : beChanged false s e = false →
        (determine w.links).map (fun l => (l.id, l.cost)) = (determine e.w.links).map (fun l => (l.id, l.cost)) ∧
        (match determine w.links with | some l => w.bw l.id | none => (0, 0)) =
          (match determine e.w.links with | some l => e.w.bw l.id | none => (0, 0)) := by
      intro hb
      unfold beChanged at hb
      by_cases hec : e.egressChanged = true
      · rw [hec, Bool.and_eq_false_iff] at hb
        rcases hb with hb | hb
        · simp at hb
        · rw [Bool.or_eq_false_iff, hnb, h.be] at hb
          obtain ⟨hb1, hb2⟩ := hb
          have hid := Decidable.byContradiction (of_decide_eq_false hb1)
          cases hd : determine w.links with
          | none =>
            cases hd' : determine e.w.links with
            | none => exact ⟨rfl, rfl⟩
            | some l' => rw [hd, hd'] at hid; cases hid
          | some l =>
            cases hd' : determine e.w.links with
            | none => rw [hd, hd'] at hid; cases hid
            | some l' =>
              rw [hd, hd'] at hid
              have hid : some l.id = some l'.id := hid
              injection hid with hid
              rw [hd'] at hb2
              have hdirty : e.dirty = false := by simpa using hb2
              obtain ⟨hc, hbw⟩ := ht.dirty hdirty l l' hd hd' hid
              refine ⟨?_, ?_⟩
              · show some (l.id, l.cost) = some (l'.id, l'.cost)
                rw [hid, hc]
              · show w.bw l.id = e.w.bw l'.id
                rw [← hbw, hid]
      · have hec : e.egressChanged = false := by simpa using hec
        obtain ⟨hl, hbw⟩ := ht.links hec
        rw [hl, hbw]
        exact ⟨rfl, rfl⟩
    refine ⟨ht.sane, hnb, rfl, ?_, ?_⟩
    · show newBest false s e = _
      unfold newBest
      split
      · rw [hnb, live_determine e.w ht.sane]
      · rename_i hc
        have h1 : oCh s e = false := by
          cases ho : oCh s e with
          | false => rfl
          | true => exact absurd (Or.inl ho) hc
        have h2 : beChanged false s e = false := by
          cases ho : beChanged false s e with
          | false => rfl
          | true => exact absurd (Or.inr (Or.inl ho)) hc
        unfold oCh at h1
        rw [Bool.or_eq_false_iff] at h1
        have h3 : e.w.allDown = s.allDown := Decidable.byContradiction (of_decide_eq_false h1.2)
        rw [h.best]
        exact overall_congr _ _ _ _ (hsame h2).1 (ht.gw h1.1).symm (by rw [h3, h.allDown])
    · show newAnn false s e = _
      unfold newAnn
      split
      · rw [hnb]
        cases determine e.w.links <;> rfl
      · rename_i hc
        have h2 : beChanged false s e = false := by
          cases ho : beChanged false s e with
          | false => rfl
          | true => exact absurd (Or.inl ho) hc
        rw [h.ann]
        exact (hsame h2).2

private theorem inv_start (e : Ev) (h : Sane e.w) : Inv e.w (step true init e) := by
  have hnb := newBe_eq true e.w init e
  have hnb : newBe true init e = (determine e.w.links).map (fun l => l.id) := if_pos (Or.inr rfl)
  unfold step
  rw [if_neg (by simp)]
  refine ⟨h, hnb, rfl, ?_, ?_⟩
  · show newBest true init e = _
    unfold newBest
    rw [if_pos (Or.inr (Or.inr rfl)), hnb, live_determine e.w h]
  · show newAnn true init e = _
    unfold newAnn
    rw [if_pos (Or.inr rfl), hnb]
    cases determine e.w.links <;> rfl

private theorem inv_run : ∀ (l : List Ev) (w : World) (s : St), Inv w s → ToldAll w l →
    Inv (worldAfter w l) (l.foldl (step false) s)
  | [], _, _, h, _ => h
  | e :: l, w, s, h, ht => by
    have h1 := inv_step w s e h (ht [] e l rfl)
    exact inv_run l e.w (step false s e) h1 (fun pre x post hl => ht (e :: pre) x post (by rw [hl]; rfl))

/-! ### The routes -/

private theorem route_leads (w : World) (h : Sane w) (h0 : ∀ r, Leads w (some r) → r.idx ≠ 0) :
    Leads w (routeOf (determine w.links) w (overall (determine w.links) w)) := by
  rcases overall_cases w h with ⟨l, hl, e⟩ | ⟨g, hg, e⟩ | ⟨hn, e⟩
  · refine Or.inl ⟨l, hl, ?_⟩
    have hi : l.idx ≠ 0 := h0 ⟨l.idx, l.gw⟩ (Or.inl ⟨l, hl, rfl⟩)
    rw [e, hl.1]
    simp only [routeOf]
    rw [if_neg hi]
  · refine Or.inr (Or.inl ⟨g, hg, ?_⟩)
    have hi : g.tun ≠ 0 := h0 ⟨g.tun, none⟩ (Or.inr (Or.inl ⟨g, hg, rfl⟩))
    rw [e]
    simp only [routeOf]
    rw [hg.1.1]
    simp only []
    rw [if_neg hi]
  · exact Or.inr (Or.inr ⟨hn, by rw [e]; rfl⟩)

private theorem leads_unique (w : World) (r r' : Option Route) (h : Leads w r) (h' : Leads w r') : r = r' := by
  rcases h with ⟨l, hl, e⟩ | ⟨g, hg, e⟩ | ⟨hn, e⟩
  · rcases h' with ⟨l', hl', e'⟩ | ⟨g', hg', e'⟩ | ⟨hn', e'⟩
    · rw [e, e', egress_unique w l l' hl hl']
    · exact (egress_gw w l g' hl hg').elim
    · exact (egress_no w l hl hn').elim
  · rcases h' with ⟨l', hl', e'⟩ | ⟨g', hg', e'⟩ | ⟨hn', e'⟩
    · exact (egress_gw w l' g hl' hg).elim
    · rw [e, e', usable_unique w g g' hg.1 hg'.1]
    · exact (gw_no w g hg hn').elim
  · rcases h' with ⟨l', hl', e'⟩ | ⟨g', hg', e'⟩ | ⟨hn', e'⟩
    · exact (egress_no w l' hl' hn).elim
    · exact (gw_no w g' hg' hn).elim
    · rw [e, e']

private theorem setup_some (force : Bool) (os : Os) (old : Option Route) (r : Route) (k : Option Route)
    (hu : os.isUp r.idx = true) (ha : os.accepts r = true) (hk : force = false → old = some r → k = some r) :
    setup force os old (some r) k = (some r, some r) := by
  have hadd : ∀ k, program os true (some r) k = (some r, some r) := by
    intro k
    simp only [program]
    rw [if_neg (by rw [hu]; decide), if_neg (by decide), if_pos ha]
  unfold setup
  simp only []
  by_cases h : old ≠ some r ∨ force = true
  · rw [if_pos h, hadd]
  · rw [if_neg h]
    have h1 : old = some r := Decidable.byContradiction fun e => h (Or.inl e)
    have h2 : force = false := by
      cases hf : force with
      | false => rfl
      | true => exact absurd (Or.inr hf) h
    rw [if_neg (fun hc => hc.1 h1), hk h2 h1]

private theorem setup_none (os : Os) (old k : Option Route)
    (hk : k = old ∨ k = none) (hu : ∀ r, old = some r → os.isUp r.idx = true ∨ k = none) :
    setup false os old none k = (none, none) := by
  unfold setup
  simp only []
  cases old with
  | none =>
    have hk : k = none := by rcases hk with h | h <;> exact h
    rw [hk]
    rw [if_neg (by simp), if_neg (by simp)]
  | some r =>
    have hne : (some r : Option Route) ≠ none := by intro h; cases h
    rw [if_pos (Or.inl hne), if_pos ⟨hne, trivial⟩]
    simp only [program]
    congr 1
    split
    · rename_i hd
      rcases hu r rfl with h | h
      · rw [hd] at h; cases h
      · exact h
    · rcases hk with h | h
      · rw [h]; simp
      · rw [h]; simp

private theorem flush_or (gone : Nat → Bool) (k : Option Route) : flush gone k = k ∨ flush gone k = none := by
  cases k with
  | none => exact Or.inl rfl
  | some r =>
    simp only [flush]
    split
    · exact Or.inr rfl
    · exact Or.inl rfl

private theorem flush_keep (gone : Nat → Bool) (r : Route) (h : gone r.idx = false) : flush gone (some r) = some r := by
  simp only [flush]
  rw [if_neg (by rw [h]; decide)]

private theorem route_step (w : World) (s : St) (e : Ev) (h : Inv w s) (ht : Told w e) (hf : Follows w e)
    (hr : Leads w s.route) (hk : s.kern = s.route) :
    Leads e.w (step false s e).route ∧ (step false s e).kern = (step false s e).route := by
  have hi := inv_step w s e h ht
  have h0 : ∀ r, Leads e.w (some r) → r.idx ≠ 0 := fun r hr => (hf.add r hr).1
  have hlead := route_leads e.w ht.sane h0
  have hnb := newBe_eq false w s e h.be (fun _ he => (ht.links he).1)
  -- unchanged choice
  have hstay : overall (determine e.w.links) e.w = s.best →
      Leads e.w s.route ∧ flush e.gone s.kern = s.route := by
    intro hb
    have hl : Leads e.w s.route := by
      rw [h.best] at hb
      rcases overall_cases w h.sane with ⟨l, hl, e1⟩ | ⟨g, hg, e1⟩ | ⟨hn, e1⟩
      · rcases overall_cases e.w ht.sane with ⟨l', hl', e2⟩ | ⟨g', hg', e2⟩ | ⟨hn', e2⟩
        · rw [e1, e2] at hb
          injection hb with hb
          obtain ⟨hx, hy⟩ := hf.stay l l' hl hl' hb.symm
          rw [leads_unique w _ _ hr (Or.inl ⟨l, hl, rfl⟩), hx, hy]
          exact Or.inl ⟨l', hl', rfl⟩
        · rw [e1, e2] at hb; cases hb
        · rw [e1, e2] at hb; cases hb
      · rcases overall_cases e.w ht.sane with ⟨l', hl', e2⟩ | ⟨g', hg', e2⟩ | ⟨hn', e2⟩
        · rw [e1, e2] at hb; cases hb
        · rw [e1, e2] at hb
          injection hb with _ hb
          rw [leads_unique w _ _ hr (Or.inr (Or.inl ⟨g, hg, rfl⟩)), ← hb]
          exact Or.inr (Or.inl ⟨g', hg', rfl⟩)
        · rw [e1, e2] at hb; cases hb
      · rcases overall_cases e.w ht.sane with ⟨l', hl', e2⟩ | ⟨g', hg', e2⟩ | ⟨hn', e2⟩
        · rw [e1, e2] at hb; cases hb
        · rw [e1, e2] at hb; cases hb
        · rw [leads_unique w _ _ hr (Or.inr (Or.inr ⟨hn, rfl⟩))]
          exact Or.inr (Or.inr ⟨hn', rfl⟩)
    refine ⟨hl, ?_⟩
    rw [hk]
    cases hrt : s.route with
    | none => rfl
    | some r =>
      rw [hrt] at hl hr
      exact flush_keep e.gone r ((hf.add r hl).2.2.2 hr)
  by_cases hskip : e.egressChanged = false ∧ oCh s e = false ∧ false = false
  · have es : step false s e = { s with kern := flush e.gone s.kern } := if_pos hskip
    rw [es] at hi ⊢
    exact hstay hi.best.symm
  · have es : step false s e = ⟨newBe false s e, e.w.allDown, newBest false s e, (newRoute false s e).1, newAnn false s e, (newRoute false s e).2⟩ :=
      if_neg hskip
    rw [es] at hi ⊢
    have hb : newBest false s e = overall (determine e.w.links) e.w := hi.best
    show Leads e.w (newRoute false s e).1 ∧ (newRoute false s e).2 = (newRoute false s e).1
    unfold newRoute
    by_cases hc : newBest false s e ≠ s.best ∨ false = true
    · rw [if_pos hc, hnb, live_determine e.w ht.sane, hb]
      cases hn : routeOf (determine e.w.links) e.w (overall (determine e.w.links) e.w) with
      | none =>
        rw [hn] at hlead
        rw [setup_none e.os s.route (flush e.gone s.kern) (by rw [hk]; exact flush_or _ _) (by
          intro r hrr
          rw [hrr] at hr
          rcases hf.del r hr hlead with h | h
          · exact Or.inl h
          · rw [hk, hrr]
            refine Or.inr ?_
            simp only [flush]
            rw [if_pos h])]
        exact ⟨hlead, rfl⟩
      | some r =>
        rw [hn] at hlead
        obtain ⟨_, h2, h3, h4⟩ := hf.add r hlead
        rw [setup_some false e.os s.route r (flush e.gone s.kern) h2 h3 (by
          intro _ hrr
          rw [hrr] at hr
          rw [hk, hrr]
          exact flush_keep e.gone r (h4 hr))]
        exact ⟨hlead, rfl⟩
    · rw [if_neg hc]
      have hbb : newBest false s e = s.best := Decidable.byContradiction fun h => hc (Or.inl h)
      exact hstay (hb ▸ hbb)

private theorem route_start (e : Ev) (h : Sane e.w) (hs : StartOk e) :
    Leads e.w (step true init e).route ∧ (step true init e).kern = (step true init e).route := by
  have hi := inv_start e h
  have hlead := route_leads e.w h (fun r hr => (hs r hr).1)
  have es : step true init e = ⟨newBe true init e, e.w.allDown, newBest true init e, (newRoute true init e).1, newAnn true init e, (newRoute true init e).2⟩ :=
    if_neg (by simp)
  rw [es] at hi ⊢
  have hb : newBest true init e = overall (determine e.w.links) e.w := hi.best
  have hnb : newBe true init e = (determine e.w.links).map (fun l => l.id) := hi.be
  show Leads e.w (newRoute true init e).1 ∧ (newRoute true init e).2 = (newRoute true init e).1
  unfold newRoute
  rw [if_pos (Or.inr rfl), hnb, live_determine e.w h, hb]
  cases hn : routeOf (determine e.w.links) e.w (overall (determine e.w.links) e.w) with
  | none =>
    rw [hn] at hlead
    exact ⟨hlead, rfl⟩
  | some r =>
    rw [hn] at hlead
    obtain ⟨_, h2, h3⟩ := hs r hlead
    rw [setup_some true e.os _ r _ h2 h3 (fun h => by cases h)]
    exact ⟨hlead, rfl⟩

private theorem route_run : ∀ (l : List Ev) (w : World) (s : St), Inv w s → ToldAll w l → FollowsAll w l →
    Leads w s.route → s.kern = s.route →
    Leads (worldAfter w l) (l.foldl (step false) s).route ∧ (l.foldl (step false) s).kern = (l.foldl (step false) s).route
  | [], _, _, _, _, _, hr, hk => ⟨hr, hk⟩
  | e :: l, w, s, h, ht, hf, hr, hk => by
    have h1 := inv_step w s e h (ht [] e l rfl)
    have h2 := route_step w s e h (ht [] e l rfl) (hf [] e l rfl) hr hk
    exact route_run l e.w (step false s e) h1 (fun pre x post hl => ht (e :: pre) x post (by rw [hl]; rfl))
      (fun pre x post hl => hf (e :: pre) x post (by rw [hl]; rfl)) h2.1 h2.2

/-! ### C128 -/

/-- After every sequence of changes of the egress links, their costs, the smart gateway and
the mesh interfaces the best link is the cheaper one of the best egress link and the smart
gateway, the egress link if they cost the same. -/
theorem C128_link (first : Ev) (l : List Ev) (h0 : Sane first.w) (ht : ToldAll first.w l) :
    (∀ i, (run first l).best = .egress i ↔ ∃ k, EgressBest (worldAfter first.w l) k ∧ k.id = i) ∧
    (∀ i t, (run first l).best = .olsr i t ↔ ∃ g, GwBest (worldAfter first.w l) g ∧ g.id = i ∧ g.tun = t) ∧
    ((run first l).best = .none ↔ NoLink (worldAfter first.w l)) := by
  have h := inv_run l _ _ (inv_start first h0) ht
  have hb : (run first l).best = overall (determine (worldAfter first.w l).links) (worldAfter first.w l) := h.best
  rw [hb]
  rcases overall_cases _ h.sane with ⟨k, hk, e⟩ | ⟨g, hg, e⟩ | ⟨hn, e⟩
  · rw [e]
    refine ⟨fun i => ?_, fun i t => ?_, ?_⟩
    · constructor
      · intro h; injection h with h; exact ⟨k, hk, h⟩
      · rintro ⟨k', hk', h⟩; rw [← h, egress_unique _ _ _ hk hk']
    · constructor
      · intro h; cases h
      · rintro ⟨g, hg, _⟩; exact (egress_gw _ _ _ hk hg).elim
    · constructor
      · intro h; cases h
      · intro hn; exact (egress_no _ _ hk hn).elim
  · rw [e]
    refine ⟨fun i => ?_, fun i t => ?_, ?_⟩
    · constructor
      · intro h; cases h
      · rintro ⟨k, hk, _⟩; exact (egress_gw _ _ _ hk hg).elim
    · constructor
      · intro h; injection h with h1 h2; exact ⟨g, hg, h1, h2⟩
      · rintro ⟨g', hg', h1, h2⟩; rw [← h1, ← h2, usable_unique _ _ _ hg.1 hg'.1]
    · constructor
      · intro h; cases h
      · intro hn; exact (gw_no _ _ hg hn).elim
  · rw [e]
    refine ⟨fun i => ?_, fun i t => ?_, ?_⟩
    · constructor
      · intro h; cases h
      · rintro ⟨k, hk, _⟩; exact (egress_no _ _ hk hn).elim
    · constructor
      · intro h; cases h
      · rintro ⟨g, hg, _⟩; exact (gw_no _ _ hg hn).elim
    · exact ⟨fun _ => hn, fun _ => rfl⟩

/-- The bandwidth that is announced is that of the best egress link, or none.  This needs
that a change of the bandwidth of that link is reported (`Told.dirty`), which is not always
so, see `C126_notice_negation`. -/
theorem C128_announced (first : Ev) (l : List Ev) (h0 : Sane first.w) (ht : ToldAll first.w l) :
    (∀ k, determine (worldAfter first.w l).links = some k → (run first l).ann = (worldAfter first.w l).bw k.id) ∧
    (determine (worldAfter first.w l).links = none → (run first l).ann = (0, 0)) := by
  have h := (inv_run l _ _ (inv_start first h0) ht).ann
  have h : (run first l).ann = _ := h
  constructor
  · intro k hk; rw [h, hk]
  · intro hk; rw [h, hk]

/-- C128 (partial): the route in the kernel leads over the best link, and without a link
there is none.  Missing: it is assumed that the operating system follows and that index and
gateway of the best link do not change while it is the best; see `C128_gateway_negation`,
`C128_stale_negation`, `C128_never_negation`. -/
theorem C128_route_partial (first : Ev) (l : List Ev) (h0 : Sane first.w) (hs : StartOk first) (ht : ToldAll first.w l)
    (hf : FollowsAll first.w l) : Leads (worldAfter first.w l) (run first l).kern := by
  have h1 := route_start first h0 hs
  have h2 := route_run l _ _ (inv_start first h0) ht hf h1.1 h1.2
  have h3 : (run first l).kern = (run first l).route := h2.2
  rw [h3]
  exact h2.1

/-- C128 (partial): after shutdown there is no route, if the interface of the last one is up. -/
theorem C128_stop_partial (first : Ev) (l : List Ev) (os : Os) (h0 : Sane first.w) (hs : StartOk first) (ht : ToldAll first.w l)
    (hf : FollowsAll first.w l) (hu : ∀ r, Leads (worldAfter first.w l) (some r) → os.isUp r.idx = true) :
    (stop os (run first l)).kern = none := by
  have h1 := route_start first h0 hs
  obtain ⟨h2, h3⟩ := route_run l _ _ (inv_start first h0) ht hf h1.1 h1.2
  have h2 : Leads (worldAfter first.w l) (run first l).route := h2
  have h3 : (run first l).kern = (run first l).route := h3
  show (program os false (run first l).route (run first l).kern).2 = none
  rw [h3]
  cases hr : (run first l).route with
  | none => rfl
  | some r =>
    rw [hr] at h2
    simp only [program]
    rw [if_neg (by rw [hu r h2]; decide)]
    simp

private def good : Os := ⟨fun _ => true, fun _ => true⟩

/-- The file gives the best link another gateway: the best egress link has changed, the best
overall link is the same one, so the route keeps the old gateway. -/
theorem C128_gateway_negation (g g' : Option Nat) (hg : g ≠ g') (w : Option Nat → World)
    (hw : ∀ x, w x = ⟨[⟨0, 3, true, 5, x, true⟩], none, false, fun _ => (1, 1)⟩) (e e' : Ev)
    (he : e = ⟨w g, good, true, false, true, fun _ => false⟩) (he' : e' = ⟨w g', good, true, false, true, fun _ => false⟩) :
    (run e [e']).kern = some ⟨3, g⟩ ∧ Leads (worldAfter e.w [e']) (some ⟨3, g'⟩) ∧ ¬ Leads (worldAfter e.w [e']) (some ⟨3, g⟩) := by
  have hd : ∀ x, determine [⟨0, 3, true, 5, x, true⟩] = some ⟨0, 3, true, 5, x, true⟩ := by
    intro x
    simp [determine, int64Max]
  have hl : Leads (worldAfter e.w [e']) (some ⟨3, g'⟩) := by
    refine Or.inl ⟨⟨0, 3, true, 5, g', true⟩, ⟨?_, ?_⟩, rfl⟩
    · show determine e'.w.links = _
      rw [he', hw]; exact hd g'
    · intro k hk
      have : e'.w.gw = some k := hk.1
      rw [he', hw] at this
      cases this
  refine ⟨?_, hl, fun h => ?_⟩
  · have h1 : step true init e = ⟨some 0, false, .egress 0, some ⟨3, g⟩, (1, 1), some ⟨3, g⟩⟩ := by
      rw [he, hw]
      simp [step, init, newBe, newBest, newRoute, newAnn, hd, live, overall, egressCost, olsrCost, int64Max, routeOf, setup, program, good]
    show (step false (step true init e) e').kern = _
    rw [h1, he', hw]
    simp [step, newBe, newBest, newRoute, hd, live, overall, egressCost, olsrCost, int64Max, flush]
  · have := leads_unique _ _ _ h hl
    injection this with this
    injection this with _ this
    exact hg this

/-- The only link loses its carrier: the route over it stays. -/
theorem C128_stale_negation (e e' : Ev)
    (he : e = ⟨⟨[⟨0, 3, true, 5, none, true⟩], none, false, fun _ => (1, 1)⟩, good, true, false, true, fun _ => false⟩)
    (he' : e' = ⟨⟨[⟨0, 3, false, int64Max, none, false⟩], none, false, fun _ => (1, 1)⟩, ⟨fun _ => false, fun _ => true⟩, true, false, true, fun _ => false⟩) :
    (run e [e']).kern = some ⟨3, none⟩ ∧ Leads (worldAfter e.w [e']) none ∧
    ∀ os, (stop os (run e [e'])).kern = some ⟨3, none⟩ := by
  have hr : run e [e'] = ⟨none, false, .none, none, (0, 0), some ⟨3, none⟩⟩ := by
    rw [he, he']
    decide
  refine ⟨by rw [hr], Or.inr (Or.inr ⟨⟨?_, ?_⟩, rfl⟩), fun os => by rw [hr]; rfl⟩
  · show determine e'.w.links = none
    rw [he']; decide
  · intro g hg
    have : e'.w.gw = some g := hg.1
    rw [he'] at this
    cases this

/-- If the interface is down for a moment when it is chosen, or the kernel refuses the route,
the route is not made however often the choice is repeated. -/
theorem C128_never_negation (w : World) (hw : w = ⟨[⟨0, 3, true, 5, none, true⟩], none, false, fun _ => (1, 1)⟩)
    (os : Os) (ho : os.isUp 3 = false ∨ ∀ r, os.accepts r = false) (a b c : Bool) (l : List Ev) (hl : ∀ e ∈ l, e.w = w) :
    (run ⟨w, os, a, b, c, fun _ => false⟩ l).kern = none ∧ Leads (worldAfter w l) (some ⟨3, none⟩) := by
  have hd : determine w.links = some ⟨0, 3, true, 5, none, true⟩ := by rw [hw]; decide
  have hwa : ∀ l : List Ev, (∀ e ∈ l, e.w = w) → worldAfter w l = w := by
    intro l
    induction l with
    | nil => intro _; rfl
    | cons e l ih =>
      intro hl
      show worldAfter e.w l = w
      rw [hl e List.mem_cons_self]
      exact ih (fun x hx => hl x (List.mem_cons_of_mem _ hx))
  constructor
  · have h1 : ∃ r, step true init ⟨w, os, a, b, c, fun _ => false⟩ = ⟨some 0, false, .egress 0, r, (1, 1), none⟩ := by
      rw [hw]
      rcases ho with ho | ho
      · refine ⟨some ⟨3, none⟩, ?_⟩
        simp [step, init, newBe, newBest, newRoute, newAnn, determine, live, overall, egressCost, olsrCost, int64Max, routeOf, setup, program, ho, flush]
      · cases hu : os.isUp 3 with
        | true =>
          refine ⟨none, ?_⟩
          simp [step, init, newBe, newBest, newRoute, newAnn, determine, live, overall, egressCost, olsrCost, int64Max, routeOf, setup, program, ho, hu, flush]
        | false =>
          refine ⟨some ⟨3, none⟩, ?_⟩
          simp [step, init, newBe, newBest, newRoute, newAnn, determine, live, overall, egressCost, olsrCost, int64Max, routeOf, setup, program, hu, flush]
    obtain ⟨r, h1⟩ := h1
    have h2 : ∀ (l : List Ev), (∀ e ∈ l, e.w = w) →
        (l.foldl (step false) ⟨some 0, false, .egress 0, r, (1, 1), none⟩).kern = none := by
      intro l
      induction l with
      | nil => intro _; rfl
      | cons e l ih =>
        intro hl
        have he := hl e List.mem_cons_self
        have hs : step false ⟨some 0, false, .egress 0, r, (1, 1), none⟩ e = ⟨some 0, false, .egress 0, r, (1, 1), none⟩ := by
          obtain ⟨ew, eos, ea, eb, ec, eg⟩ := e
          simp only at he
          rw [he, hw]
          cases ea <;> cases eb <;> cases ec <;>
            simp [step, oCh, newBe, newBest, newRoute, newAnn, beChanged, determine, live, overall, egressCost, olsrCost, int64Max, flush]
        rw [List.foldl_cons, hs]
        exact ih (fun x hx => hl x (List.mem_cons_of_mem _ hx))
    show (l.foldl (step false) (step true init _)).kern = none
    rw [h1]
    exact h2 l hl
  · rw [hwa l hl]
    refine Or.inl ⟨⟨0, 3, true, 5, none, true⟩, ⟨hd, ?_⟩, rfl⟩
    intro g hg
    have := hg.1
    rw [hw] at this
    cases this

/-! ### Examples -/

/-- An egress link of cost 5 and a gateway of cost 7; then the gateway gets cheaper, then the
mesh interfaces go down. -/
private def W (c : Nat) (d : Bool) : World := ⟨[⟨0, 3, true, 5, some 9, true⟩, ⟨1, 4, true, 8, none, true⟩], some ⟨20, c, 11⟩, d, fun i => (100 + i, 10)⟩

example : run ⟨W 7 false, good, true, false, false, fun _ => false⟩ [] = ⟨some 0, false, .egress 0, some ⟨3, some 9⟩, (100, 10), some ⟨3, some 9⟩⟩ := by decide

example : run ⟨W 7 false, good, true, false, false, fun _ => false⟩ [⟨W 4 false, good, false, true, false, fun _ => false⟩] =
    ⟨some 0, false, .olsr 20 11, some ⟨11, none⟩, (100, 10), some ⟨11, none⟩⟩ := by decide

example : run ⟨W 7 false, good, true, false, false, fun _ => false⟩
    [⟨W 4 false, good, false, true, false, fun _ => false⟩, ⟨W 4 true, good, false, false, false, fun _ => false⟩] =
    ⟨some 0, true, .egress 0, some ⟨3, some 9⟩, (100, 10), some ⟨3, some 9⟩⟩ := by decide

example : Sane (W 7 false) :=
  ⟨by decide, by decide, fun g hg => by
    have : some (⟨20, 7, 11⟩ : Gw) = some g := hg
    injection this with this
    rw [← this]; decide⟩

example : Told (W 7 false) ⟨W 4 false, good, false, true, false, fun _ => false⟩ :=
  ⟨⟨by decide, by decide, fun g hg => by
    have : some (⟨20, 4, 11⟩ : Gw) = some g := hg
    injection this with this
    rw [← this]; decide⟩, fun _ => ⟨rfl, rfl⟩, fun h => (by cases h), fun _ l l' h h' _ => by
      have h : determine (W 7 false).links = some l := h
      have h' : determine (W 7 false).links = some l' := h'
      rw [h] at h'
      injection h' with h'
      rw [h']
      exact ⟨rfl, rfl⟩⟩

end Verif.Overall
