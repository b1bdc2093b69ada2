import Verif.HnaModel
/-! Helper lemmas for the HNA set. -/
namespace Verif.Hna

/-- What a lookup of the network finds. -/
def view (es : List Ent) (gw : List Nat) (p : Pfx) : Option (Option Nat) :=
  (lookupGw es gw).bind (fun e => (lookupNet e.nets p).map (fun n => n.timer))

theorem lookupGw_cons (e : Ent) (es : List Ent) (gw : List Nat) :
    lookupGw (e :: es) gw = if e.gw = gw then some e else lookupGw es gw := by
  unfold lookupGw
  by_cases h : e.gw = gw
  · rw [if_pos h]; simp [h]
  · rw [if_neg h]; simp [h]

theorem lookupNet_cons (n : Net) (ns : List Net) (p : Pfx) :
    lookupNet (n :: ns) p = if n.pfx = p then some n else lookupNet ns p := by
  unfold lookupNet
  by_cases h : n.pfx = p
  · rw [if_pos h]; simp [h]
  · rw [if_neg h]; simp [h]

theorem lookupGw_gw {es : List Ent} {gw : List Nat} {e : Ent} (h : lookupGw es gw = some e) : e ∈ es ∧ e.gw = gw := by
  unfold lookupGw at h
  have h1 := List.mem_of_find?_eq_some h
  have h2 := List.find?_some h
  exact ⟨h1, by simpa using h2⟩

theorem lookupGw_mod (es : List Ent) (gw gw' : List Nat) (f : List Net → List Net) :
    lookupGw (modGw es gw f) gw' =
      if gw' = gw then (lookupGw es gw).map (fun e => { e with nets := f e.nets }) else lookupGw es gw' := by
  induction es with
  | nil => simp [modGw, lookupGw]
  | cons e es ih =>
    unfold modGw
    by_cases h : e.gw = gw
    · rw [if_pos h, lookupGw_cons, lookupGw_cons, lookupGw_cons]
      by_cases h2 : gw' = gw
      · subst h2; simp [h]
      · have h3 : ¬ e.gw = gw' := fun hc => h2 (hc.symm.trans h)
        simp [h2, h3]
    · rw [if_neg h, lookupGw_cons, lookupGw_cons, lookupGw_cons, ih]
      by_cases h2 : gw' = gw
      · subst h2; simp [h]
      · simp only [if_neg h2]

theorem lookupGw_with (es : List Ent) (gw gw' : List Nat) :
    lookupGw (withGw es gw) gw' =
      if gw' = gw then some ((lookupGw es gw).getD { gw := gw, nets := [] }) else lookupGw es gw' := by
  unfold withGw
  cases h : lookupGw es gw with
  | some e =>
    simp only []
    by_cases h2 : gw' = gw
    · subst h2; rw [if_pos rfl, h]; rfl
    · rw [if_neg h2]
  | none =>
    simp only []
    rw [lookupGw_cons]
    by_cases h2 : gw' = gw
    · subst h2; simp
    · have h3 : ¬ gw = gw' := fun hc => h2 hc.symm
      simp [h2, h3]

theorem lookupNet_setTimer (ns : List Net) (p q : Pfx) (t : Option Nat) :
    (lookupNet (setTimer ns p t) q).map (fun n => n.timer) =
      if q = p then (lookupNet ns p).map (fun _ => t) else (lookupNet ns q).map (fun n => n.timer) := by
  induction ns with
  | nil => simp [setTimer, lookupNet]
  | cons n ns ih =>
    unfold setTimer
    by_cases h : n.pfx = p
    · rw [if_pos h, lookupNet_cons, lookupNet_cons, lookupNet_cons]
      by_cases h2 : q = p
      · subst h2; simp [h]
      · have h3 : ¬ n.pfx = q := fun hc => h2 (hc.symm.trans h)
        simp [h2, h3]
    · rw [if_neg h, lookupNet_cons, lookupNet_cons, lookupNet_cons]
      by_cases h2 : q = p
      · subst h2
        rw [if_neg h, if_neg h]
        exact ih
      · by_cases h3 : n.pfx = q
        · simp [h2, h3]
        · rw [if_neg h3, if_neg h3, if_neg h2]; rw [if_neg h2] at ih; exact ih

theorem lookupNet_with (ns : List Net) (p q : Pfx) :
    lookupNet (withNet ns p) q =
      if q = p then some ((lookupNet ns p).getD { pfx := p, timer := none }) else lookupNet ns q := by
  unfold withNet
  cases h : lookupNet ns p with
  | some e =>
    simp only []
    by_cases h2 : q = p
    · subst h2; rw [if_pos rfl, h]; rfl
    · rw [if_neg h2]
  | none =>
    simp only []
    rw [lookupNet_cons]
    by_cases h2 : q = p
    · subst h2; simp
    · have h3 : ¬ p = q := fun hc => h2 hc.symm
      simp [h2, h3]

/-- The networks of `gw` after an update of `p`. -/
def upd (es : List Ent) (gw : List Nat) (p : Pfx) (t : Option Nat) : List Ent :=
  modGw (withGw es gw) gw (fun ns => setTimer (withNet ns p) p t)

theorem view_upd (es : List Ent) (gw gw' : List Nat) (p q : Pfx) (t : Option Nat) :
    view (upd es gw p t) gw' q = if gw' = gw ∧ q = p then some t else view es gw' q := by
  unfold view upd
  rw [lookupGw_mod, lookupGw_with, lookupGw_with]
  by_cases h : gw' = gw
  · subst h
    simp only [if_true, Option.map_some, Option.bind_some, true_and]
    rw [lookupNet_setTimer, lookupNet_with, lookupNet_with]
    by_cases h2 : q = p
    · subst h2; simp
    · simp only [if_neg h2]
      cases h3 : lookupGw es gw' with
      | none => simp [lookupNet]
      | some e => simp
  · simp [h]

/-- No entry twice, no network twice, no entry without network. -/
structure Wf (es : List Ent) : Prop where
  gws : (es.map Ent.gw).Nodup
  pfxs : ∀ e ∈ es, (e.nets.map Net.pfx).Nodup
  nonempty : ∀ e ∈ es, e.nets ≠ []

theorem wf_tail {e : Ent} {es : List Ent} (h : Wf (e :: es)) : Wf es :=
  ⟨(List.nodup_cons.1 h.gws).2, fun x hx => h.pfxs x (List.mem_cons_of_mem _ hx), fun x hx => h.nonempty x (List.mem_cons_of_mem _ hx)⟩

theorem lookupGw_none {es : List Ent} {gw : List Nat} : lookupGw es gw = none ↔ gw ∉ es.map Ent.gw := by
  induction es with
  | nil => simp [lookupGw]
  | cons e es ih =>
    rw [lookupGw_cons]
    by_cases h : e.gw = gw
    · simp [h]
    · rw [if_neg h, ih]
      simp only [List.map_cons, List.mem_cons, not_or]
      exact ⟨fun h2 => ⟨fun hc => h hc.symm, h2⟩, fun h2 => h2.2⟩

theorem lookupNet_none {ns : List Net} {p : Pfx} : lookupNet ns p = none ↔ p ∉ ns.map Net.pfx := by
  induction ns with
  | nil => simp [lookupNet]
  | cons n ns ih =>
    rw [lookupNet_cons]
    by_cases h : n.pfx = p
    · simp [h]
    · rw [if_neg h, ih]
      simp only [List.map_cons, List.mem_cons, not_or]
      exact ⟨fun h2 => ⟨fun hc => h hc.symm, h2⟩, fun h2 => h2.2⟩

theorem lookupNet_erase {ns : List Net} (hn : (ns.map Net.pfx).Nodup) (p q : Pfx) :
    lookupNet (ns.eraseP (fun n => n.pfx == p)) q = if q = p then none else lookupNet ns q := by
  induction ns with
  | nil => simp [lookupNet]
  | cons n ns ih =>
    have hn2 := List.nodup_cons.1 hn
    by_cases h : n.pfx = p
    · rw [List.eraseP_cons_of_pos (by simpa using h), lookupNet_cons]
      by_cases h2 : q = p
      · subst h2
        rw [if_pos rfl]
        apply lookupNet_none.2
        intro hc
        apply hn2.1
        rw [h]
        exact hc
      · have h3 : ¬ n.pfx = q := fun hc => h2 (hc.symm.trans h)
        rw [if_neg h2, if_neg h3]
    · rw [List.eraseP_cons_of_neg (by simpa using h), lookupNet_cons, lookupNet_cons, ih hn2.2]
      by_cases h2 : q = p
      · subst h2; simp [h]
      · simp [h2]

theorem view_drop {es : List Ent} (hw : Wf es) (gw gw' : List Nat) (p q : Pfx) :
    view (dropNet es gw p) gw' q = if gw' = gw ∧ q = p then none else view es gw' q := by
  induction es with
  | nil => simp [dropNet, view, lookupGw]
  | cons e es ih =>
    have ih := ih (wf_tail hw)
    unfold dropNet
    by_cases h : e.gw = gw
    · rw [if_pos h]
      have hno : lookupGw es gw = none := lookupGw_none.2 (by rw [← h]; exact (List.nodup_cons.1 hw.gws).1)
      have he := lookupNet_erase (hw.pfxs e List.mem_cons_self) p q
      by_cases hemp : (e.nets.eraseP (fun n => n.pfx == p)).isEmpty
      · rw [if_pos hemp]
        have hemp2 : e.nets.eraseP (fun n => n.pfx == p) = [] := List.isEmpty_iff.1 hemp
        rw [hemp2] at he
        unfold view
        rw [lookupGw_cons]
        by_cases h2 : gw' = gw
        · subst h2
          simp only [h, if_true, hno, Option.bind_none, Option.bind_some, true_and]
          by_cases h3 : q = p
          · rw [if_pos h3]
          · rw [if_neg h3] at he ⊢
            rw [← he]; rfl
        · have h3 : ¬ e.gw = gw' := fun hc => h2 (hc.symm.trans h)
          simp [h2, h3]
      · rw [if_neg hemp]
        unfold view
        rw [lookupGw_cons, lookupGw_cons]
        by_cases h2 : gw' = gw
        · subst h2
          simp only [h, if_true, Option.bind_some, true_and]
          rw [he]
          by_cases h3 : q = p
          · simp [h3]
          · simp [h3]
        · have h3 : ¬ e.gw = gw' := fun hc => h2 (hc.symm.trans h)
          simp [h2, h3]
    · rw [if_neg h]
      unfold view at ih ⊢
      rw [lookupGw_cons, lookupGw_cons]
      by_cases h2 : e.gw = gw'
      · have h3 : ¬ gw' = gw := fun hc => h (h2.trans hc)
        simp [h2, h3]
      · rw [if_neg h2, if_neg h2]; exact ih

theorem modGw_gws (es : List Ent) (gw : List Nat) (f : List Net → List Net) : (modGw es gw f).map Ent.gw = es.map Ent.gw := by
  induction es with
  | nil => rfl
  | cons e es ih =>
    unfold modGw
    by_cases h : e.gw = gw
    · rw [if_pos h]; rfl
    · rw [if_neg h, List.map_cons, List.map_cons, ih]

theorem mem_modGw {es : List Ent} {gw : List Nat} {f : List Net → List Net} {x : Ent} (h : x ∈ modGw es gw f) :
    (x ∈ es ∧ x.gw ≠ gw) ∨ x ∈ es.tail ∨ x ∈ es ∧ x.gw = gw ∨ ∃ e ∈ es, e.gw = gw ∧ x = { e with nets := f e.nets } := by
  induction es with
  | nil => cases h
  | cons e es ih =>
    unfold modGw at h
    by_cases hg : e.gw = gw
    · rw [if_pos hg] at h
      rcases List.mem_cons.1 h with h | h
      · exact Or.inr (Or.inr (Or.inr ⟨e, List.mem_cons_self, hg, h⟩))
      · exact Or.inr (Or.inl h)
    · rw [if_neg hg] at h
      rcases List.mem_cons.1 h with h | h
      · exact Or.inl ⟨h ▸ List.mem_cons_self, h ▸ hg⟩
      · rcases ih h with h1 | h1 | h1 | ⟨y, hy, hy2, hy3⟩
        · exact Or.inl ⟨List.mem_cons_of_mem _ h1.1, h1.2⟩
        · exact Or.inr (Or.inl (by simp only [List.tail_cons]; exact List.mem_of_mem_tail h1))
        · exact Or.inr (Or.inl (by simp only [List.tail_cons]; exact h1.1))
        · exact Or.inr (Or.inr (Or.inr ⟨y, List.mem_cons_of_mem _ hy, hy2, hy3⟩))

theorem setTimer_pfxs (ns : List Net) (p : Pfx) (t : Option Nat) : (setTimer ns p t).map Net.pfx = ns.map Net.pfx := by
  induction ns with
  | nil => rfl
  | cons e es ih =>
    unfold setTimer
    by_cases h : e.pfx = p
    · rw [if_pos h]; rfl
    · rw [if_neg h, List.map_cons, List.map_cons, ih]

theorem withNet_pfxs {ns : List Net} (h : (ns.map Net.pfx).Nodup) (p : Pfx) : ((withNet ns p).map Net.pfx).Nodup := by
  unfold withNet
  cases hl : lookupNet ns p with
  | some _ => exact h
  | none => exact List.nodup_cons.2 ⟨lookupNet_none.1 hl, h⟩

theorem withNet_ne (ns : List Net) (p : Pfx) : withNet ns p ≠ [] := by
  unfold withNet
  cases hl : lookupNet ns p with
  | some x => intro hc; simp only [] at hc; subst hc; cases hl
  | none => intro hc; cases hc

theorem wf_upd {es : List Ent} (hw : Wf es) (gw : List Nat) (p : Pfx) (t : Option Nat) : Wf (upd es gw p t) := by
  have hwith : ((withGw es gw).map Ent.gw).Nodup ∧ ∀ e ∈ withGw es gw, (e.nets.map Net.pfx).Nodup ∧ (e.gw ≠ gw → e.nets ≠ []) := by
    unfold withGw
    cases hl : lookupGw es gw with
    | some x => exact ⟨hw.gws, fun e he => ⟨hw.pfxs e he, fun _ => hw.nonempty e he⟩⟩
    | none =>
      refine ⟨List.nodup_cons.2 ⟨lookupGw_none.1 hl, hw.gws⟩, fun e he => ?_⟩
      rcases List.mem_cons.1 he with he | he
      · subst he; exact ⟨List.nodup_nil, fun h => absurd rfl h⟩
      · exact ⟨hw.pfxs e he, fun _ => hw.nonempty e he⟩
  unfold upd
  generalize withGw es gw = l at hwith
  have key : ∀ x ∈ modGw l gw (fun ns => setTimer (withNet ns p) p t),
      (x ∈ l ∧ x.gw ≠ gw) ∨ ∃ e ∈ l, e.gw = gw ∧ x = { e with nets := setTimer (withNet e.nets p) p t } := by
    have hnd := hwith.1
    clear hwith
    induction l with
    | nil => intro x hx; cases hx
    | cons e l ih =>
      intro x hx
      unfold modGw at hx
      have hnd2 := List.nodup_cons.1 hnd
      by_cases hg : e.gw = gw
      · rw [if_pos hg] at hx
        rcases List.mem_cons.1 hx with hx | hx
        · exact Or.inr ⟨e, List.mem_cons_self, hg, hx⟩
        · exact Or.inl ⟨List.mem_cons_of_mem _ hx, fun hc => hnd2.1 (hg ▸ hc ▸ List.mem_map_of_mem hx)⟩
      · rw [if_neg hg] at hx
        rcases List.mem_cons.1 hx with hx | hx
        · exact Or.inl ⟨hx ▸ List.mem_cons_self, hx ▸ hg⟩
        · rcases ih hnd2.2 x hx with h1 | ⟨y, hy, hy2⟩
          · exact Or.inl ⟨List.mem_cons_of_mem _ h1.1, h1.2⟩
          · exact Or.inr ⟨y, List.mem_cons_of_mem _ hy, hy2⟩
  refine ⟨by rw [modGw_gws]; exact hwith.1, fun x hx => ?_, fun x hx => ?_⟩
  · rcases key x hx with h1 | ⟨y, hy, _, hy2⟩
    · exact (hwith.2 x h1.1).1
    · subst hy2
      show ((setTimer (withNet y.nets p) p t).map Net.pfx).Nodup
      rw [setTimer_pfxs]
      exact withNet_pfxs (hwith.2 y hy).1 p
  · rcases key x hx with h1 | ⟨y, hy, _, hy2⟩
    · exact (hwith.2 x h1.1).2 h1.2
    · subst hy2
      show setTimer (withNet y.nets p) p t ≠ []
      intro hc
      have h1 := setTimer_pfxs (withNet y.nets p) p t
      rw [hc] at h1
      exact withNet_ne y.nets p (List.map_eq_nil_iff.1 h1.symm)

theorem dropNet_gws (es : List Ent) (gw : List Nat) (p : Pfx) : ((dropNet es gw p).map Ent.gw).Sublist (es.map Ent.gw) := by
  induction es with
  | nil => exact List.Sublist.refl _
  | cons e es ih =>
    unfold dropNet
    by_cases h : e.gw = gw
    · rw [if_pos h]
      split
      · exact List.sublist_cons_self _ _
      · exact List.Sublist.refl _
    · rw [if_neg h]
      exact List.Sublist.cons_cons _ ih

theorem wf_drop {es : List Ent} (hw : Wf es) (gw : List Nat) (p : Pfx) : Wf (dropNet es gw p) := by
  have key : ∀ x ∈ dropNet es gw p, (x.nets.map Net.pfx).Nodup ∧ x.nets ≠ [] := by
    have h1 := hw.pfxs
    have h2 := hw.nonempty
    clear hw
    induction es with
    | nil => intro x hx; cases hx
    | cons e es ih =>
      intro x hx
      unfold dropNet at hx
      by_cases h : e.gw = gw
      · rw [if_pos h] at hx
        by_cases hemp : (e.nets.eraseP (fun n => n.pfx == p)).isEmpty
        · rw [if_pos hemp] at hx
          exact ⟨h1 x (List.mem_cons_of_mem _ hx), h2 x (List.mem_cons_of_mem _ hx)⟩
        · rw [if_neg hemp] at hx
          rcases List.mem_cons.1 hx with hx | hx
          · subst hx
            exact ⟨(h1 e List.mem_cons_self).sublist (List.Sublist.map Net.pfx List.eraseP_sublist),
              fun hc => hemp (List.isEmpty_iff.2 hc)⟩
          · exact ⟨h1 x (List.mem_cons_of_mem _ hx), h2 x (List.mem_cons_of_mem _ hx)⟩
      · rw [if_neg h] at hx
        rcases List.mem_cons.1 hx with hx | hx
        · subst hx; exact ⟨h1 _ List.mem_cons_self, h2 _ List.mem_cons_self⟩
        · exact ih (fun y hy => h1 y (List.mem_cons_of_mem _ hy)) (fun y hy => h2 y (List.mem_cons_of_mem _ hy)) x hx
  exact ⟨hw.gws.sublist (dropNet_gws es gw p), fun x hx => (key x hx).1, fun x hx => (key x hx).2⟩

theorem mem_lookupGw {es : List Ent} (hn : (es.map Ent.gw).Nodup) {e : Ent} (he : e ∈ es) : lookupGw es e.gw = some e := by
  induction es with
  | nil => cases he
  | cons x es ih =>
    rw [lookupGw_cons]
    have hn2 := List.nodup_cons.1 hn
    rcases List.mem_cons.1 he with he | he
    · subst he; rw [if_pos rfl]
    · rw [if_neg (fun hc : x.gw = e.gw => hn2.1 (by rw [hc]; exact List.mem_map_of_mem he))]
      exact ih hn2.2 he

theorem mem_lookupNet {ns : List Net} (hn : (ns.map Net.pfx).Nodup) {n : Net} (he : n ∈ ns) : lookupNet ns n.pfx = some n := by
  induction ns with
  | nil => cases he
  | cons x es ih =>
    rw [lookupNet_cons]
    have hn2 := List.nodup_cons.1 hn
    rcases List.mem_cons.1 he with he | he
    · subst he; rw [if_pos rfl]
    · rw [if_neg (fun hc : x.pfx = n.pfx => hn2.1 (by rw [hc]; exact List.mem_map_of_mem he))]
      exact ih hn2.2 he

theorem lookupNet_mem {ns : List Net} {p : Pfx} {n : Net} (h : lookupNet ns p = some n) : n ∈ ns ∧ n.pfx = p := by
  unfold lookupNet at h
  have h1 := List.mem_of_find?_eq_some h
  have h2 := List.find?_some h
  exact ⟨h1, by simpa using h2⟩

theorem view_some {es : List Ent} (hw : Wf es) {gw : List Nat} {p : Pfx} {t : Option Nat} :
    view es gw p = some t ↔ ∃ e ∈ es, e.gw = gw ∧ ∃ n ∈ e.nets, n.pfx = p ∧ n.timer = t := by
  unfold view
  constructor
  · intro h
    cases h1 : lookupGw es gw with
    | none => rw [h1] at h; cases h
    | some e =>
      rw [h1] at h
      simp only [Option.bind_some] at h
      cases h2 : lookupNet e.nets p with
      | none => rw [h2] at h; cases h
      | some n =>
        rw [h2] at h
        have hm := lookupGw_gw h1
        have hn := lookupNet_mem h2
        exact ⟨e, hm.1, hm.2, n, hn.1, hn.2, by simpa using h⟩
  · rintro ⟨e, he, rfl, n, hn, rfl, rfl⟩
    rw [mem_lookupGw hw.gws he]
    simp only [Option.bind_some]
    rw [mem_lookupNet (hw.pfxs e he) hn]
    rfl

/-! ### Paths -/

/-- There is an `rt_path`. -/
def has (s : St) (o : List Nat) (p : Pfx) : Prop := s.path o p ≠ none

/-- Without topology entry there are no paths. -/
def Owned (s : St) : Prop := ∀ o p, has s o p → s.tc o = true

theorem addPath_has (s : St) (o o' : List Nat) (p p' : Pfx) (k : Origin) :
    has (addPath s o p k) o' p' ↔ has s o' p' ∨ (o' = o ∧ p' = p) := by
  unfold addPath has
  cases h : s.path o p with
  | some x =>
    constructor
    · exact Or.inl
    · rintro (h1 | ⟨rfl, rfl⟩)
      · exact h1
      · intro hc; rw [h] at hc; cases hc
  | none =>
    show (if o' = o ∧ p' = p then some k else s.path o' p') ≠ none ↔ _
    by_cases h2 : o' = o ∧ p' = p
    · rw [if_pos h2]
      exact ⟨fun _ => Or.inr h2, fun _ hc => by cases hc⟩
    · rw [if_neg h2]
      exact ⟨Or.inl, fun h3 => h3.elim id (fun h4 => absurd h4 h2)⟩

theorem addPath_same (s : St) (o : List Nat) (p : Pfx) (k : Origin) :
    (addPath s o p k).ents = s.ents ∧ (addPath s o p k).tc = s.tc ∧ (addPath s o p k).mids = s.mids ∧ (addPath s o p k).chTopo = s.chTopo := by
  unfold addPath
  cases s.path o p <;> exact ⟨rfl, rfl, rfl, rfl⟩

theorem insertRoute_same (c : Cfg) (s : St) (p : Pfx) (o : List Nat) (k : Origin) :
    (insertRoute c s p o k).ents = s.ents ∧ (insertRoute c s p o k).mids = s.mids ∧ (insertRoute c s p o k).chTopo = s.chTopo := by
  unfold insertRoute locateTc addTc
  split
  · exact ⟨rfl, rfl, rfl⟩
  · split
    · exact ⟨rfl, rfl, rfl⟩
    · rename_i s1 h1
      have h2 := addPath_same s1 o p k
      rw [h2.1, h2.2.2.1, h2.2.2.2]
      by_cases ht : s.tc o
      · rw [if_pos ht] at h1; cases h1; exact ⟨rfl, rfl, rfl⟩
      · rw [if_neg ht] at h1
        by_cases hm : c.mainSet
        · rw [if_pos hm] at h1
          cases h1
          have h3 := addPath_same { s with tc := fun x => if x = o then true else s.tc x
                                           path := fun o' p => if o' = o then none else s.path o' p } o (host c o) .int
          rw [h3.1, h3.2.2.1, h3.2.2.2]; exact ⟨rfl, rfl, rfl⟩
        · rw [if_neg hm] at h1; cases h1

theorem insertRoute_tc (c : Cfg) (s : St) (p : Pfx) (o o' : List Nat) (k : Origin) :
    (insertRoute c s p o k).tc o' = true ↔ s.tc o' = true ∨ (o' = o ∧ p.len ≤ c.maxplen ∧ c.mainSet = true) := by
  unfold insertRoute locateTc addTc
  by_cases hp : p.len > c.maxplen
  · rw [if_pos hp]
    exact ⟨Or.inl, fun h => h.elim id (fun h2 => by omega)⟩
  · rw [if_neg hp]
    by_cases ht : s.tc o = true
    · rw [if_pos ht]
      simp only []
      rw [(addPath_same s o p k).2.1]
      exact ⟨Or.inl, fun h => h.elim id (fun h2 => h2.1 ▸ ht)⟩
    · rw [if_neg ht]
      by_cases hm : c.mainSet = true
      · rw [if_pos hm]
        simp only []
        rw [(addPath_same _ o p k).2.1, (addPath_same _ o (host c o) .int).2.1]
        show (if o' = o then true else s.tc o') = true ↔ _
        by_cases h : o' = o
        · rw [if_pos h]; exact ⟨fun _ => Or.inr ⟨h, by omega, hm⟩, fun _ => rfl⟩
        · rw [if_neg h]; exact ⟨Or.inl, fun h2 => h2.elim id (fun h3 => absurd h3.1 h)⟩
      · rw [if_neg hm]
        exact ⟨Or.inl, fun h => h.elim id (fun h2 => absurd h2.2.2 hm)⟩

theorem insertRoute_has {s : St} (hO : Owned s) (c : Cfg) (p p' : Pfx) (o o' : List Nat) (k : Origin) :
    has (insertRoute c s p o k) o' p' ↔ has s o' p' ∨
      (o' = o ∧ p.len ≤ c.maxplen ∧ (s.tc o = true ∨ c.mainSet = true) ∧ (p' = p ∨ (¬ s.tc o = true ∧ p' = host c o))) := by
  unfold insertRoute locateTc addTc
  by_cases hp : p.len > c.maxplen
  · rw [if_pos hp]
    exact ⟨Or.inl, fun h => h.elim id (fun h2 => by omega)⟩
  · rw [if_neg hp]
    by_cases ht : s.tc o = true
    · rw [if_pos ht]
      simp only []
      rw [addPath_has]
      constructor
      · rintro (h | ⟨h1, h2⟩)
        · exact Or.inl h
        · exact Or.inr ⟨h1, by omega, Or.inl ht, Or.inl h2⟩
      · rintro (h | ⟨h1, _, _, h2 | h2⟩)
        · exact Or.inl h
        · exact Or.inr ⟨h1, h2⟩
        · exact absurd ht h2.1
    · rw [if_neg ht]
      by_cases hm : c.mainSet = true
      · rw [if_pos hm]
        simp only []
        rw [addPath_has, addPath_has]
        have hclear : has { s with tc := fun x => if x = o then true else s.tc x
                                   path := fun o' p => if o' = o then none else s.path o' p } o' p' ↔ has s o' p' := by
          unfold has
          show (if o' = o then none else s.path o' p') ≠ none ↔ _
          by_cases h : o' = o
          · subst h
            rw [if_pos rfl]
            exact ⟨fun h => absurd rfl h, fun h => absurd (hO o' p' h) ht⟩
          · rw [if_neg h]
        rw [hclear]
        constructor
        · rintro ((h | ⟨h1, h2⟩) | ⟨h1, h2⟩)
          · exact Or.inl h
          · exact Or.inr ⟨h1, by omega, Or.inr hm, Or.inr ⟨ht, h2⟩⟩
          · exact Or.inr ⟨h1, by omega, Or.inr hm, Or.inl h2⟩
        · rintro (h | ⟨h1, _, _, h2 | h2⟩)
          · exact Or.inl (Or.inl h)
          · exact Or.inr ⟨h1, h2⟩
          · exact Or.inl (Or.inr ⟨h1, h2.2⟩)
      · rw [if_neg hm]
        exact ⟨Or.inl, fun h => h.elim id (fun h2 => h2.2.2.1.elim (fun h3 => absurd h3 ht) (fun h3 => absurd h3 hm))⟩

theorem owned_insert {s : St} (hO : Owned s) (c : Cfg) (p : Pfx) (o : List Nat) (k : Origin) : Owned (insertRoute c s p o k) := by
  intro o' p' h
  rw [insertRoute_tc]
  rcases (insertRoute_has hO c p p' o o' k).1 h with h | ⟨h1, h2, h3, _⟩
  · exact Or.inl (hO o' p' h)
  · rcases h3 with h3 | h3
    · exact Or.inl (h1 ▸ h3)
    · exact Or.inr ⟨h1, h2, h3⟩

theorem deleteRoute_same (c : Cfg) (s : St) (p : Pfx) (o : List Nat) :
    (deleteRoute c s p o).ents = s.ents ∧ (deleteRoute c s p o).tc = s.tc ∧ (deleteRoute c s p o).mids = s.mids ∧
      (deleteRoute c s p o).chTopo = s.chTopo := by
  unfold deleteRoute delPath
  split
  · exact ⟨rfl, rfl, rfl, rfl⟩
  · split
    · split <;> exact ⟨rfl, rfl, rfl, rfl⟩
    · exact ⟨rfl, rfl, rfl, rfl⟩

theorem deleteRoute_has {s : St} (hO : Owned s) (c : Cfg) (p p' : Pfx) (o o' : List Nat) :
    has (deleteRoute c s p o) o' p' ↔ has s o' p' ∧ ¬ (o' = o ∧ p' = p ∧ p.len ≤ c.maxplen) := by
  unfold deleteRoute delPath
  by_cases hp : p.len > c.maxplen
  · rw [if_pos hp]
    exact ⟨fun h => ⟨h, fun hc => by omega⟩, fun h => h.1⟩
  · rw [if_neg hp]
    by_cases ht : s.tc o = true
    · rw [if_pos ht]
      cases hq : s.path o p with
      | none =>
        simp only []
        refine ⟨fun h => ⟨h, ?_⟩, fun h => h.1⟩
        rintro ⟨rfl, rfl, _⟩
        exact h hq
      | some x =>
        unfold has
        show (if o' = o ∧ p' = p then none else s.path o' p') ≠ none ↔ _
        by_cases h : o' = o ∧ p' = p
        · rw [if_pos h]
          exact ⟨fun hc => absurd rfl hc, fun hc => absurd ⟨h.1, h.2, by omega⟩ hc.2⟩
        · rw [if_neg h]
          exact ⟨fun h2 => ⟨h2, fun hc => h ⟨hc.1, hc.2.1⟩⟩, fun h2 => h2.1⟩
    · rw [if_neg ht]
      refine ⟨fun h => ⟨h, ?_⟩, fun h => h.1⟩
      rintro ⟨rfl, rfl, _⟩
      exact ht (hO o' p' h)

theorem owned_delete {s : St} (hO : Owned s) (c : Cfg) (p : Pfx) (o : List Nat) : Owned (deleteRoute c s p o) := by
  intro o' p' h
  rw [(deleteRoute_same c s p o).2.1]
  exact hO o' p' ((deleteRoute_has hO c p p' o o').1 h).1

theorem delTc_same (c : Cfg) (s : St) (a : List Nat) :
    (delTc c s a).ents = s.ents ∧ (delTc c s a).mids = s.mids ∧ (delTc c s a).chTopo = s.chTopo := by
  unfold delTc
  split
  · have h := deleteRoute_same c s (host c a) a
    exact ⟨h.1, h.2.2.1, h.2.2.2⟩
  · exact ⟨rfl, rfl, rfl⟩

theorem delTc_has {s : St} (hO : Owned s) (c : Cfg) (a o : List Nat) (p : Pfx) :
    has (delTc c s a) o p ↔ has s o p ∧ o ≠ a := by
  unfold delTc
  by_cases h : s.tc a = true
  · rw [if_pos h]
    unfold has
    show (if o = a then none else s.path o p) ≠ none ↔ _
    by_cases h2 : o = a
    · rw [if_pos h2]; exact ⟨fun hc => absurd rfl hc, fun hc => absurd h2 hc.2⟩
    · rw [if_neg h2]; exact ⟨fun h3 => ⟨h3, h2⟩, fun h3 => h3.1⟩
  · rw [if_neg h]
    exact ⟨fun h2 => ⟨h2, fun hc => h (hc ▸ hO o p h2)⟩, fun h2 => h2.1⟩

theorem delTc_tc (c : Cfg) (s : St) (a o : List Nat) : (delTc c s a).tc o = true ↔ s.tc o = true ∧ o ≠ a := by
  unfold delTc
  by_cases h : s.tc a = true
  · rw [if_pos h]
    show (if o = a then false else s.tc o) = true ↔ _
    by_cases h2 : o = a
    · rw [if_pos h2]; exact ⟨fun hc => (by cases hc), fun hc => absurd h2 hc.2⟩
    · rw [if_neg h2]; exact ⟨fun h3 => ⟨h3, h2⟩, fun h3 => h3.1⟩
  · rw [if_neg h]
    exact ⟨fun h2 => ⟨h2, fun hc => h (hc ▸ h2)⟩, fun h2 => h2.1⟩

theorem owned_delTc {s : St} (hO : Owned s) (c : Cfg) (a : List Nat) : Owned (delTc c s a) := by
  intro o p h
  have h1 := (delTc_has hO c a o p).1 h
  exact (delTc_tc c s a o).2 ⟨hO o p h1.1, h1.2⟩

end Verif.Hna
