import Verif.SockSpec
/-
Lemmas about the sockets of the scheduler.
-/
namespace Verif.Sock

theorem trace_nil : Trace [] := by
  intro pre ev post h
  cases pre <;> cases h

theorem trace_snoc (log : List Ev) (ev : Ev) (h : Trace log) (hev : OkEv log ev) : Trace (log ++ [ev]) := by
  intro pre e post heq
  rcases List.eq_nil_or_concat post with rfl | ⟨post', l, rfl⟩
  · have := List.append_inj' heq rfl
    obtain ⟨h1, h2⟩ := this
    injection h2 with h2 _
    subst h1 h2
    exact hev
  · rw [List.concat_eq_append, ← List.cons_append, ← List.append_assoc] at heq
    have := List.append_inj' heq rfl
    exact h pre e post' this.1

theorem freed_removed (log : List Ev) (h : Trace log) (id : Nat) (hf : Ev.freed id ∈ log) : Ev.removed id ∈ log := by
  obtain ⟨a, b, rfl⟩ := List.append_of_mem hf
  exact List.mem_append_left _ (h a _ b rfl).1

/-- The list agrees with what happened. -/
structure Inv (st : St) : Prop where
  tr : Trace st.log
  sorted : st.ents.Pairwise (fun a b => a.id < b.id)
  lt : ∀ e ∈ st.ents, e.id < st.next
  fresh : ∀ ev ∈ st.log, about ev < st.next
  live : ∀ e ∈ st.ents, dead e = false →
    Ev.added e.id e.fd e.pr e.imm e.data ∈ st.log ∧ Ev.removed e.id ∉ st.log
  gone : ∀ e ∈ st.ents, dead e = true → Ev.removed e.id ∈ st.log ∧ Ev.freed e.id ∉ st.log
  back : ∀ id fd pr imm d, Ev.added id fd pr imm d ∈ st.log →
    Ev.removed id ∈ st.log ∨ ∃ e ∈ st.ents, e.id = id ∧ e.fd = fd ∧ e.pr = pr ∧ e.imm = imm ∧ e.data = d
  rest : ∀ id, Ev.removed id ∈ st.log → Ev.freed id ∈ st.log ∨ ∃ e ∈ st.ents, e.id = id

theorem inv_init : Inv init where
  tr := trace_nil
  sorted := List.Pairwise.nil
  lt := by intro e he; cases he
  fresh := by intro e he; cases he
  live := by intro e he; cases he
  gone := by intro e he; cases he
  back := by intro _ _ _ _ _ he; cases he
  rest := by intro _ he; cases he

theorem dead_iff (e : Ent) : dead e = true ↔ e.pr = none ∧ e.imm = none := by
  unfold dead
  cases e.pr <;> cases e.imm <;> simp

theorem inv_add (fd pr imm d f) (st : St) (h : Inv st) : Inv (addSocket fd pr imm d f st) := by
  unfold addSocket
  split
  · exact h
  · rename_i g
    split
    · exact h
    · rename_i hn
      refine ⟨trace_snoc _ _ h.tr ⟨fun ev hev => Nat.ne_of_lt (h.fresh ev hev), hn⟩, ?_, ?_, ?_, ?_, ?_, ?_, ?_⟩
      · rw [List.pairwise_append]
        refine ⟨h.sorted, List.pairwise_singleton _ _, ?_⟩
        intro a ha b hb
        rw [List.mem_singleton.mp hb]
        exact h.lt a ha
      · intro e he
        rcases List.mem_append.mp he with he | he
        · exact Nat.lt_succ_of_lt (h.lt e he)
        · rw [List.mem_singleton.mp he]; exact Nat.lt_succ_self _
      · intro ev he
        rcases List.mem_append.mp he with he | he
        · exact Nat.lt_succ_of_lt (h.fresh ev he)
        · rw [List.mem_singleton.mp he]; exact Nat.lt_succ_self _
      · intro e he hd
        rcases List.mem_append.mp he with he | he
        · obtain ⟨a, b⟩ := h.live e he hd
          refine ⟨List.mem_append_left _ a, ?_⟩
          intro hm
          rcases List.mem_append.mp hm with hm | hm
          · exact b hm
          · cases List.mem_singleton.mp hm
        · rw [List.mem_singleton.mp he]
          refine ⟨List.mem_append_right _ (List.mem_singleton.mpr rfl), ?_⟩
          intro hm
          rcases List.mem_append.mp hm with hm | hm
          · exact Nat.lt_irrefl _ (h.fresh _ hm)
          · cases List.mem_singleton.mp hm
      · intro e he hd
        rcases List.mem_append.mp he with he | he
        · obtain ⟨a, b⟩ := h.gone e he hd
          refine ⟨List.mem_append_left _ a, ?_⟩
          intro hm
          rcases List.mem_append.mp hm with hm | hm
          · exact b hm
          · cases List.mem_singleton.mp hm
        · rw [List.mem_singleton.mp he, dead_iff] at hd
          exact absurd hd hn
      · intro id fd' pr' imm' d' hm
        rcases List.mem_append.mp hm with hm | hm
        · rcases h.back _ _ _ _ _ hm with hr | ⟨e, he, hx⟩
          · exact Or.inl (List.mem_append_left _ hr)
          · exact Or.inr ⟨e, List.mem_append_left _ he, hx⟩
        · have := List.mem_singleton.mp hm
          injection this with e1 e2 e3 e4 e5
          subst e1 e2 e3 e4 e5
          exact Or.inr ⟨_, List.mem_append_right _ (List.mem_singleton.mpr rfl), rfl, rfl, rfl, rfl, rfl⟩
      · intro id hm
        rcases List.mem_append.mp hm with hm | hm
        · rcases h.rest _ hm with hr | ⟨e, he, hx⟩
          · exact Or.inl (List.mem_append_left _ hr)
          · exact Or.inr ⟨e, List.mem_append_left _ he, hx⟩
        · cases List.mem_singleton.mp hm

theorem removeFirst_some (fd : Nat) (pr imm : Option Nat) : ∀ (l l' : List Ent) (id : Nat),
    removeFirst fd pr imm l = some (l', id) →
    ∃ a e b, l = a ++ e :: b ∧ same fd pr imm e = true ∧ l' = a ++ kill e :: b ∧ id = e.id
  | [], _, _, h => by cases h
  | x :: r, l', id, h => by
    unfold removeFirst at h
    by_cases hs : same fd pr imm x = true
    · rw [if_pos hs] at h
      injection h with h
      injection h with h1 h2
      exact ⟨[], x, r, rfl, hs, h1.symm, h2.symm⟩
    · rw [if_neg hs] at h
      cases hr : removeFirst fd pr imm r with
      | none => rw [hr] at h; cases h
      | some q =>
        rw [hr] at h
        obtain ⟨q1, q2⟩ := q
        injection h with h
        injection h with h1 h2
        obtain ⟨a, e, b, g1, g2, g3, g4⟩ := removeFirst_some fd pr imm r q1 q2 hr
        simp only at h1 h2
        exact ⟨x :: a, e, b, by rw [g1]; rfl, g2, by rw [← h1, g3]; rfl, by rw [← h2, g4]⟩

theorem same_live (fd : Nat) (pr imm : Option Nat) (e : Ent) (hn : ¬ (pr = none ∧ imm = none))
    (h : same fd pr imm e = true) : dead e = false := by
  cases hd : dead e with
  | false => rfl
  | true =>
    rw [dead_iff] at hd
    unfold same at h
    simp only [Bool.and_eq_true, decide_eq_true_eq] at h
    exact absurd ⟨h.2 ▸ hd.1, h.1.2 ▸ hd.2⟩ hn

theorem kill_dead (e : Ent) : dead (kill e) = true := rfl

theorem inv_remove (fd pr imm) (st : St) (h : Inv st) : Inv (removeSocket fd pr imm st) := by
  unfold removeSocket
  split
  · exact h
  · rename_i f
    split
    · exact h
    · rename_i hn
      cases hr : removeFirst f pr imm st.ents with
      | none => exact h
      | some q =>
        obtain ⟨l, id⟩ := q
        obtain ⟨a, e, b, g1, g2, g3, g4⟩ := removeFirst_some f pr imm _ _ _ hr
        subst g3 g4
        have hmem : e ∈ st.ents := by rw [g1]; exact List.mem_append_right _ List.mem_cons_self
        have hlive := same_live f pr imm e hn g2
        obtain ⟨l1, l2⟩ := h.live e hmem hlive
        have hs := h.sorted
        rw [g1] at hs
        have hs2 := List.pairwise_append.mp hs
        have hs3 := List.pairwise_cons.mp hs2.2.1
        have other : ∀ x, x ∈ a ∨ x ∈ b → x ∈ st.ents ∧ x.id ≠ e.id := by
          intro x hx
          rcases hx with hx | hx
          · exact ⟨by rw [g1]; exact List.mem_append_left _ hx,
              Nat.ne_of_lt (hs2.2.2 x hx e List.mem_cons_self)⟩
          · exact ⟨by rw [g1]; exact List.mem_append_right _ (List.mem_cons_of_mem _ hx),
              (Nat.ne_of_lt (hs3.1 x hx)).symm⟩
        have mem' : ∀ x, x ∈ a ++ kill e :: b → x = kill e ∨ (x ∈ a ∨ x ∈ b) := by
          intro x hx
          rcases List.mem_append.mp hx with hx | hx
          · exact Or.inr (Or.inl hx)
          · rcases List.mem_cons.mp hx with hx | hx
            · exact Or.inl hx
            · exact Or.inr (Or.inr hx)
        have mem2 : ∀ x, (x ∈ a ∨ x ∈ b) → x ∈ a ++ kill e :: b := by
          intro x hx
          rcases hx with hx | hx
          · exact List.mem_append_left _ hx
          · exact List.mem_append_right _ (List.mem_cons_of_mem _ hx)
        have mem3 : ∀ x, x ∈ st.ents → x = e ∨ (x ∈ a ∨ x ∈ b) := by
          intro x hx
          rw [g1] at hx
          rcases List.mem_append.mp hx with hx | hx
          · exact Or.inr (Or.inl hx)
          · rcases List.mem_cons.mp hx with hx | hx
            · exact Or.inl hx
            · exact Or.inr (Or.inr hx)
        have nf : Ev.freed e.id ∉ st.log := fun hf => l2 (freed_removed _ h.tr _ hf)
        refine ⟨trace_snoc _ _ h.tr ⟨⟨_, _, _, _, l1⟩, l2, nf⟩, ?_, ?_, ?_, ?_, ?_, ?_, ?_⟩
        · show (a ++ kill e :: b).Pairwise _
          rw [List.pairwise_append]
          refine ⟨hs2.1, ?_, ?_⟩
          · rw [List.pairwise_cons]
            exact ⟨fun x hx => hs3.1 x hx, hs3.2⟩
          · intro x hx y hy
            rcases List.mem_cons.mp hy with rfl | hy
            · exact hs2.2.2 x hx e List.mem_cons_self
            · exact hs2.2.2 x hx y (List.mem_cons_of_mem _ hy)
        · intro x hx
          rcases mem' x hx with rfl | hx
          · exact h.lt e hmem
          · exact h.lt x (other x hx).1
        · intro ev he
          rcases List.mem_append.mp he with he | he
          · exact h.fresh ev he
          · rw [List.mem_singleton.mp he]; exact h.lt e hmem
        · intro x hx hd
          rcases mem' x hx with rfl | hx
          · rw [kill_dead] at hd; cases hd
          · obtain ⟨y1, y2⟩ := h.live x (other x hx).1 hd
            refine ⟨List.mem_append_left _ y1, ?_⟩
            intro hm
            rcases List.mem_append.mp hm with hm | hm
            · exact y2 hm
            · have := List.mem_singleton.mp hm
              injection this with this
              exact (other x hx).2 this
        · intro x hx hd
          rcases mem' x hx with rfl | hx
          · refine ⟨List.mem_append_right _ (List.mem_singleton.mpr rfl), ?_⟩
            intro hm
            rcases List.mem_append.mp hm with hm | hm
            · exact nf hm
            · cases List.mem_singleton.mp hm
          · obtain ⟨y1, y2⟩ := h.gone x (other x hx).1 hd
            refine ⟨List.mem_append_left _ y1, ?_⟩
            intro hm
            rcases List.mem_append.mp hm with hm | hm
            · exact y2 hm
            · cases List.mem_singleton.mp hm
        · intro id fd' pr' imm' d' hm
          rcases List.mem_append.mp hm with hm | hm
          · rcases h.back _ _ _ _ _ hm with hr | ⟨x, hx, hy⟩
            · exact Or.inl (List.mem_append_left _ hr)
            · rcases mem3 x hx with rfl | hx
              · left
                rw [← hy.1]
                exact List.mem_append_right _ (List.mem_singleton.mpr rfl)
              · exact Or.inr ⟨x, mem2 x hx, hy⟩
          · cases List.mem_singleton.mp hm
        · intro id hm
          rcases List.mem_append.mp hm with hm | hm
          · rcases h.rest _ hm with hr | ⟨x, hx, hy⟩
            · exact Or.inl (List.mem_append_left _ hr)
            · rcases mem3 x hx with rfl | hx
              · exact Or.inr ⟨kill x, List.mem_append_right _ List.mem_cons_self, hy⟩
              · exact Or.inr ⟨x, mem2 x hx, hy⟩
          · have := List.mem_singleton.mp hm
            injection this with this
            exact Or.inr ⟨kill e, List.mem_append_right _ List.mem_cons_self, this.symm⟩

/-- Only flags change. -/
theorem inv_map (g : Ent → Ent) (hg : ∀ e, ∃ f, g e = { e with flags := f }) (st : St) (h : Inv st) :
    Inv { st with ents := st.ents.map g } := by
  have hid : ∀ e, (g e).id = e.id ∧ (g e).fd = e.fd ∧ (g e).pr = e.pr ∧ (g e).imm = e.imm ∧ (g e).data = e.data ∧
      dead (g e) = dead e := by
    intro e
    obtain ⟨f, hf⟩ := hg e
    rw [hf]
    exact ⟨rfl, rfl, rfl, rfl, rfl, rfl⟩
  refine ⟨h.tr, ?_, ?_, h.fresh, ?_, ?_, ?_, ?_⟩
  · show (st.ents.map g).Pairwise _
    rw [List.pairwise_map]
    exact h.sorted.imp (fun {a b} hab => by rw [(hid a).1, (hid b).1]; exact hab)
  · intro e he
    obtain ⟨x, hx, rfl⟩ := List.mem_map.mp he
    rw [(hid x).1]; exact h.lt x hx
  · intro e he hd
    obtain ⟨x, hx, rfl⟩ := List.mem_map.mp he
    obtain ⟨h1, h2, h3, h4, h5, h6⟩ := hid x
    rw [h1, h2, h3, h4, h5]
    exact h.live x hx (h6 ▸ hd)
  · intro e he hd
    obtain ⟨x, hx, rfl⟩ := List.mem_map.mp he
    obtain ⟨h1, h2, h3, h4, h5, h6⟩ := hid x
    rw [h1]
    exact h.gone x hx (h6 ▸ hd)
  · intro id fd pr imm d hm
    rcases h.back _ _ _ _ _ hm with hr | ⟨x, hx, hy⟩
    · exact Or.inl hr
    · obtain ⟨h1, h2, h3, h4, h5, h6⟩ := hid x
      exact Or.inr ⟨g x, List.mem_map.mpr ⟨x, hx, rfl⟩, h1.trans hy.1, h2.trans hy.2.1, h3.trans hy.2.2.1,
        h4.trans hy.2.2.2.1, h5.trans hy.2.2.2.2⟩
  · intro id hm
    rcases h.rest _ hm with hr | ⟨x, hx, hy⟩
    · exact Or.inl hr
    · exact Or.inr ⟨g x, List.mem_map.mpr ⟨x, hx, rfl⟩, (hid x).1.trans hy⟩

theorem or_flags (fd pr imm f) (e : Ent) : ∃ x, orFlags fd pr imm f e = { e with flags := x } := by
  unfold orFlags
  split
  · exact ⟨_, rfl⟩
  · exact ⟨e.flags, rfl⟩

theorem clear_flags (fd pr imm f) (e : Ent) : ∃ x, clearFlags fd pr imm f e = { e with flags := x } := by
  unfold clearFlags
  split
  · exact ⟨_, rfl⟩
  · exact ⟨e.flags, rfl⟩

theorem inv_apply (o : Op) (st : St) (h : Inv st) : Inv (apply st o) := by
  cases o with
  | add fd pr imm d f => exact inv_add fd pr imm d f st h
  | remove fd pr imm => exact inv_remove fd pr imm st h
  | enable fd pr imm f => exact inv_map _ (or_flags fd pr imm f) st h
  | disable fd pr imm f => exact inv_map _ (clear_flags fd pr imm f) st h

theorem inv_applyAll (ops : List Op) : ∀ st, Inv st → Inv (applyAll ops st) := by
  induction ops with
  | nil => intro st h; exact h
  | cons o ops ih =>
    intro st h
    exact ih _ (inv_apply o st h)

theorem inv_call (immediate : Bool) (e : Ent) (he : e ∈ st.ents) (hh : Nat) (hhe : handler immediate e = some hh)
    (rd wr : Bool) (hrw : (rd || wr) = true) (h : Inv st) :
    Inv { st with log := st.log ++ [.called e.id immediate hh e.fd e.data rd wr] } := by
  have hd : dead e = false := by
    cases hd : dead e with
    | false => rfl
    | true =>
      rw [dead_iff] at hd
      unfold handler at hhe
      cases immediate
      · rw [if_neg (by decide), hd.1] at hhe; cases hhe
      · rw [if_pos rfl, hd.2] at hhe; cases hhe
  obtain ⟨l1, l2⟩ := h.live e he hd
  have nf : Ev.freed e.id ∉ st.log := fun hf => l2 (freed_removed _ h.tr _ hf)
  have nr : ∀ id, Ev.removed id ∈ st.log ++ [Ev.called e.id immediate hh e.fd e.data rd wr] → Ev.removed id ∈ st.log := by
    intro id hm
    rcases List.mem_append.mp hm with hm | hm
    · exact hm
    · cases List.mem_singleton.mp hm
  have nfr : ∀ id, Ev.freed id ∈ st.log ++ [Ev.called e.id immediate hh e.fd e.data rd wr] → Ev.freed id ∈ st.log := by
    intro id hm
    rcases List.mem_append.mp hm with hm | hm
    · exact hm
    · cases List.mem_singleton.mp hm
  refine ⟨trace_snoc _ _ h.tr ⟨⟨_, _, l1, hhe⟩, l2, nf, hrw⟩, h.sorted, h.lt, ?_, ?_, ?_, ?_, ?_⟩
  · intro ev hev
    rcases List.mem_append.mp hev with hev | hev
    · exact h.fresh ev hev
    · rw [List.mem_singleton.mp hev]; exact h.lt e he
  · intro x hx hdx
    obtain ⟨a, b⟩ := h.live x hx hdx
    exact ⟨List.mem_append_left _ a, fun hm => b (nr _ hm)⟩
  · intro x hx hdx
    obtain ⟨a, b⟩ := h.gone x hx hdx
    exact ⟨List.mem_append_left _ a, fun hm => b (nfr _ hm)⟩
  · intro id fd pr imm d hm
    rcases List.mem_append.mp hm with hm | hm
    · rcases h.back _ _ _ _ _ hm with hr | hx
      · exact Or.inl (List.mem_append_left _ hr)
      · exact Or.inr hx
    · cases List.mem_singleton.mp hm
  · intro id hm
    rcases h.rest _ (nr _ hm) with hr | hx
    · exact Or.inl (List.mem_append_left _ hr)
    · exact Or.inr hx

theorem inv_visit (immediate : Bool) (ib ob : Nat → Bool) (ops : List Op) (i : Nat) (st : St) (h : Inv st) :
    Inv (visit immediate ib ob ops i st) := by
  unfold visit
  cases hi : st.ents[i]? with
  | none => exact h
  | some e =>
    simp only []
    cases hh : handler immediate e with
    | none => exact h
    | some g =>
      simp only []
      by_cases hr : (ib e.fd || ob e.fd) = true
      · rw [if_pos hr]
        exact inv_applyAll ops _ (inv_call immediate e (List.mem_of_getElem? hi) g hh _ _ hr h)
      · rw [if_neg hr]; exact h

theorem inv_dispatch (immediate : Bool) (ib ob : Nat → Bool) : ∀ (cs : List (List Op)) (i : Nat) (st st' : St),
    Inv st → dispatch immediate ib ob cs i st = some st' → Inv st'
  | [], _, _, _, _, h => by cases h
  | c :: cs, i, st, st', hi, h => by
    unfold dispatch at h
    by_cases hl : st.ents.length = i + 1
    · rw [if_pos hl] at h
      injection h with h
      rw [← h]
      exact inv_visit immediate ib ob c i st hi
    · rw [if_neg hl] at h
      exact inv_dispatch immediate ib ob cs (i + 1) _ st' (inv_visit immediate ib ob c i st hi) h

theorem inv_round (immediate : Bool) (r : Rnd) (st st' : St) (hi : Inv st) (h : round immediate r st = some st') :
    Inv st' := by
  unfold round at h
  split at h
  · injection h with h; rw [← h]; exact hi
  · split at h
    · exact inv_dispatch _ _ _ _ _ _ _ hi h
    · cases h

theorem inv_rounds : ∀ (rs : List Rnd) (st st' : St), Inv st → rounds rs st = some st' → Inv st'
  | [], st, st', hi, h => by
    injection h with h; rw [← h]; exact hi
  | r :: rs, st, st', hi, h => by
    unfold rounds at h
    cases hr : round true r st with
    | none => rw [hr] at h; cases h
    | some s1 =>
      rw [hr] at h
      exact inv_rounds rs s1 st' (inv_round true r st s1 hi hr) h

theorem trace_frees : ∀ (ids : List Nat) (log : List Ev), Trace log → ids.Pairwise (· < ·) →
    (∀ id ∈ ids, Ev.removed id ∈ log ∧ Ev.freed id ∉ log) → Trace (log ++ ids.map Ev.freed)
  | [], log, h, _, _ => by simpa using h
  | id :: ids, log, h, hp, hd => by
    have hp2 := List.pairwise_cons.mp hp
    have h1 := trace_snoc log (.freed id) h (hd id List.mem_cons_self)
    have h2 := trace_frees ids (log ++ [Ev.freed id]) h1 hp2.2 (by
      intro x hx
      obtain ⟨a, b⟩ := hd x (List.mem_cons_of_mem _ hx)
      refine ⟨List.mem_append_left _ a, ?_⟩
      intro hm
      rcases List.mem_append.mp hm with hm | hm
      · exact b hm
      · have := List.mem_singleton.mp hm
        injection this with this
        exact absurd this (Nat.ne_of_gt (hp2.1 x hx)))
    rw [List.append_assoc] at h2
    exact h2

theorem inv_cleanup (st : St) (h : Inv st) : Inv (cleanup st) := by
  have hlog : (cleanup st).log = st.log ++ ((st.ents.filter dead).map (·.id)).map Ev.freed := by
    unfold cleanup
    simp [List.map_map, Function.comp_def]
  have hents : (cleanup st).ents = st.ents.filter fun e => !dead e := rfl
  have memlog : ∀ ev, ev ∈ (cleanup st).log ↔ ev ∈ st.log ∨ ∃ e ∈ st.ents, dead e = true ∧ ev = .freed e.id := by
    intro ev
    rw [hlog, List.mem_append]
    simp only [List.mem_map, List.mem_filter]
    constructor
    · rintro (h | ⟨id, ⟨e, ⟨he, hd⟩, rfl⟩, rfl⟩)
      · exact Or.inl h
      · exact Or.inr ⟨e, he, hd, rfl⟩
    · rintro (h | ⟨e, he, hd, rfl⟩)
      · exact Or.inl h
      · exact Or.inr ⟨_, ⟨e, ⟨he, hd⟩, rfl⟩, rfl⟩
  have inj : ∀ a ∈ st.ents, ∀ b ∈ st.ents, a.id = b.id → a = b := by
    intro a ha b hb hab
    obtain ⟨i, hi⟩ := List.mem_iff_getElem?.mp ha
    obtain ⟨j, hj⟩ := List.mem_iff_getElem?.mp hb
    have hs := List.pairwise_iff_getElem.mp h.sorted
    obtain ⟨hi1, hi2⟩ := List.getElem?_eq_some_iff.mp hi
    obtain ⟨hj1, hj2⟩ := List.getElem?_eq_some_iff.mp hj
    rcases Nat.lt_trichotomy i j with hlt | rfl | hlt
    · have := hs i j hi1 hj1 hlt
      rw [hi2, hj2] at this; omega
    · rw [hi] at hj; injection hj
    · have := hs j i hj1 hi1 hlt
      rw [hi2, hj2] at this; omega
  refine ⟨?_, ?_, ?_, ?_, ?_, ?_, ?_, ?_⟩
  · rw [hlog]
    apply trace_frees _ _ h.tr
    · rw [List.pairwise_map]
      exact h.sorted.filter _
    · intro id hid
      obtain ⟨e, he, rfl⟩ := List.mem_map.mp hid
      obtain ⟨he, hd⟩ := List.mem_filter.mp he
      exact h.gone e he hd
  · rw [hents]; exact h.sorted.filter _
  · intro e he
    rw [hents] at he
    exact h.lt e (List.mem_filter.mp he).1
  · intro ev hev
    rcases (memlog ev).mp hev with hev | ⟨e, he, _, rfl⟩
    · exact h.fresh ev hev
    · exact h.lt e he
  · intro e he hd
    rw [hents] at he
    obtain ⟨a, b⟩ := h.live e (List.mem_filter.mp he).1 hd
    refine ⟨(memlog _).mpr (Or.inl a), ?_⟩
    intro hm
    rcases (memlog _).mp hm with hm | ⟨_, _, _, hx⟩
    · exact b hm
    · cases hx
  · intro e he hd
    rw [hents] at he
    have := (List.mem_filter.mp he).2
    rw [hd] at this
    cases this
  · intro id fd pr imm d hm
    rcases (memlog _).mp hm with hm | ⟨_, _, _, hx⟩
    · rcases h.back _ _ _ _ _ hm with hr | ⟨e, he, hx⟩
      · exact Or.inl ((memlog _).mpr (Or.inl hr))
      · cases hd : dead e with
        | true =>
          left
          rw [← hx.1]
          exact (memlog _).mpr (Or.inl (h.gone e he hd).1)
        | false => exact Or.inr ⟨e, by rw [hents]; exact List.mem_filter.mpr ⟨he, by rw [hd]; rfl⟩, hx⟩
    · cases hx
  · intro id hm
    rcases (memlog _).mp hm with hm | ⟨_, _, _, hx⟩
    · rcases h.rest _ hm with hr | ⟨e, he, hx⟩
      · exact Or.inl ((memlog _).mpr (Or.inl hr))
      · left
        apply (memlog _).mpr
        right
        refine ⟨e, he, ?_, by rw [hx]⟩
        cases hd : dead e with
        | true => rfl
        | false => exact absurd (hx ▸ hm) (h.live e he hd).2
    · cases hx

theorem inv_step (s : Step) (st st' : St) (hi : Inv st) (h : step st s = some st') : Inv st' := by
  cases s with
  | act o => injection h with h; rw [← h]; exact inv_apply o st hi
  | poll r => exact inv_round false r st st' hi h
  | handle rs =>
    unfold step at h
    simp only at h
    cases hr : rounds rs st with
    | none => rw [hr] at h; cases h
    | some s1 =>
      rw [hr] at h
      injection h with h
      rw [← h]
      exact inv_cleanup s1 (inv_rounds rs st s1 hi hr)

theorem inv_run : ∀ (ss : List Step) (st st' : St), Inv st → run ss st = some st' → Inv st'
  | [], st, st', hi, h => by
    injection h with h; rw [← h]; exact hi
  | s :: ss, st, st', hi, h => by
    unfold run at h
    cases hr : step st s with
    | none => rw [hr] at h; cases h
    | some s1 =>
      rw [hr] at h
      exact inv_run ss s1 st' (inv_step s st s1 hi hr) h

/- Rounds. -/

/-- An entry after some operations. -/
def After (new : List Ev) (e e' : Ent) : Prop :=
  e'.id = e.id ∧ e'.fd = e.fd ∧ e'.data = e.data ∧
  ((e'.pr = e.pr ∧ e'.imm = e.imm) ∨ (e'.pr = none ∧ e'.imm = none ∧ Ev.removed e.id ∈ new))

/-- What operations do to the list. -/
structure Ext (st st' : St) (new : List Ev) : Prop where
  log : st'.log = st.log ++ new
  ents : ∀ (j : Nat) e, st.ents[j]? = some e → ∃ e', st'.ents[j]? = some e' ∧ After new e e'

theorem after_refl (e : Ent) : After [] e e := ⟨rfl, rfl, rfl, Or.inl ⟨rfl, rfl⟩⟩

theorem ext_refl (st : St) : Ext st st [] := ⟨by simp, fun _ e h => ⟨e, h, after_refl e⟩⟩

theorem after_trans (n1 n2 : List Ev) (a b c : Ent) (h1 : After n1 a b) (h2 : After n2 b c) : After (n1 ++ n2) a c := by
  obtain ⟨p1, p2, p3, p4⟩ := h1
  obtain ⟨q1, q2, q3, q4⟩ := h2
  refine ⟨q1.trans p1, q2.trans p2, q3.trans p3, ?_⟩
  rcases p4 with ⟨p4, p5⟩ | ⟨p4, p5, p6⟩
  · rcases q4 with ⟨q4, q5⟩ | ⟨q4, q5, q6⟩
    · exact Or.inl ⟨q4.trans p4, q5.trans p5⟩
    · exact Or.inr ⟨q4, q5, List.mem_append_right _ (p1 ▸ q6)⟩
  · right
    rcases q4 with ⟨q4, q5⟩ | ⟨q4, q5, q6⟩
    · exact ⟨q4.trans p4, q5.trans p5, List.mem_append_left _ p6⟩
    · exact ⟨q4, q5, List.mem_append_left _ p6⟩

theorem ext_trans (a b c : St) (n1 n2 : List Ev) (h1 : Ext a b n1) (h2 : Ext b c n2) : Ext a c (n1 ++ n2) := by
  refine ⟨by rw [h2.log, h1.log, List.append_assoc], ?_⟩
  intro j e he
  obtain ⟨e1, he1, ha1⟩ := h1.ents j e he
  obtain ⟨e2, he2, ha2⟩ := h2.ents j e1 he1
  exact ⟨e2, he2, after_trans _ _ _ _ _ ha1 ha2⟩

theorem ext_map (g : Ent → Ent) (hg : ∀ e, ∃ f, g e = { e with flags := f }) (st : St) :
    Ext st { st with ents := st.ents.map g } [] := by
  refine ⟨by simp, ?_⟩
  intro j e he
  refine ⟨g e, by simp [he], ?_⟩
  obtain ⟨f, hf⟩ := hg e
  rw [hf]
  exact ⟨rfl, rfl, rfl, Or.inl ⟨rfl, rfl⟩⟩

theorem ext_add (fd pr imm d f) (st : St) :
    ∃ new, Ext st (addSocket fd pr imm d f st) new ∧ (∀ ev ∈ new, isCall ev = false) ∧
      st.ents.length ≤ (addSocket fd pr imm d f st).ents.length := by
  unfold addSocket
  split
  · exact ⟨[], ext_refl st, by simp, Nat.le_refl _⟩
  · split
    · exact ⟨[], ext_refl st, by simp, Nat.le_refl _⟩
    · refine ⟨_, ⟨rfl, ?_⟩, ?_, by simp⟩
      · intro j e he
        refine ⟨e, ?_, rfl, rfl, rfl, Or.inl ⟨rfl, rfl⟩⟩
        show (st.ents ++ _)[j]? = _
        rw [List.getElem?_append_left (List.getElem?_eq_some_iff.mp he).1]
        exact he
      · intro ev hev
        rw [List.mem_singleton.mp hev]; rfl

theorem ext_remove (fd pr imm) (st : St) :
    ∃ new, Ext st (removeSocket fd pr imm st) new ∧ (∀ ev ∈ new, isCall ev = false) ∧
      (removeSocket fd pr imm st).ents.length = st.ents.length := by
  unfold removeSocket
  split
  · exact ⟨[], ext_refl st, by simp, rfl⟩
  · rename_i f
    split
    · exact ⟨[], ext_refl st, by simp, rfl⟩
    · cases hr : removeFirst f pr imm st.ents with
      | none => exact ⟨[], ext_refl st, by simp, rfl⟩
      | some q =>
        obtain ⟨l, id⟩ := q
        obtain ⟨a, e, b, g1, g2, g3, g4⟩ := removeFirst_some f pr imm _ _ _ hr
        refine ⟨[.removed id], ⟨rfl, ?_⟩, ?_, ?_⟩
        · intro j x hx
          rw [g1] at hx
          show ∃ e', l[j]? = some e' ∧ _
          rw [g3]
          rcases Nat.lt_trichotomy j a.length with hj | hj | hj
          · rw [List.getElem?_append_left hj] at hx ⊢
            exact ⟨x, hx, rfl, rfl, rfl, Or.inl ⟨rfl, rfl⟩⟩
          · subst hj
            rw [List.getElem?_append_right (Nat.le_refl _), Nat.sub_self] at hx ⊢
            injection hx with hx
            subst hx
            exact ⟨kill e, rfl, rfl, rfl, rfl, Or.inr ⟨rfl, rfl, by rw [g4]; exact List.mem_singleton.mpr rfl⟩⟩
          · rw [List.getElem?_append_right (Nat.le_of_lt hj)] at hx ⊢
            obtain ⟨k, hk⟩ : ∃ k, j - a.length = k + 1 := ⟨j - a.length - 1, by omega⟩
            rw [hk] at hx ⊢
            rw [List.getElem?_cons_succ] at hx ⊢
            exact ⟨x, hx, rfl, rfl, rfl, Or.inl ⟨rfl, rfl⟩⟩
        · intro ev hev
          rw [List.mem_singleton.mp hev]; rfl
        · show l.length = st.ents.length
          rw [g1, g3]; simp

theorem ext_apply (o : Op) (st : St) :
    ∃ new, Ext st (apply st o) new ∧ (∀ ev ∈ new, isCall ev = false) ∧
      st.ents.length ≤ (apply st o).ents.length ∧
      (NoAdd [o] → (apply st o).ents.length = st.ents.length) := by
  cases o with
  | add fd pr imm d f =>
    obtain ⟨n, h1, h2, h3⟩ := ext_add fd pr imm d f st
    exact ⟨n, h1, h2, h3, fun h => absurd (List.mem_singleton.mpr rfl) (h fd pr imm d f)⟩
  | remove fd pr imm =>
    obtain ⟨n, h1, h2, h3⟩ := ext_remove fd pr imm st
    exact ⟨n, h1, h2, Nat.le_of_eq h3.symm, fun _ => h3⟩
  | enable fd pr imm f =>
    exact ⟨[], ext_map _ (or_flags fd pr imm f) st, by simp, by simp [apply], fun _ => by simp [apply]⟩
  | disable fd pr imm f =>
    exact ⟨[], ext_map _ (clear_flags fd pr imm f) st, by simp, by simp [apply], fun _ => by simp [apply]⟩

theorem ext_applyAll (ops : List Op) : ∀ st : St,
    ∃ new, Ext st (applyAll ops st) new ∧ (∀ ev ∈ new, isCall ev = false) ∧
      st.ents.length ≤ (applyAll ops st).ents.length ∧
      (NoAdd ops → (applyAll ops st).ents.length = st.ents.length) := by
  induction ops with
  | nil => intro st; exact ⟨[], ext_refl st, by simp, Nat.le_refl _, fun _ => rfl⟩
  | cons o ops ih =>
    intro st
    obtain ⟨n1, a1, a2, a3, a4⟩ := ext_apply o st
    obtain ⟨n2, b1, b2, b3, b4⟩ := ih (apply st o)
    refine ⟨n1 ++ n2, ext_trans _ _ _ _ _ a1 b1, ?_, Nat.le_trans a3 b3, ?_⟩
    · intro ev hev
      rcases List.mem_append.mp hev with hev | hev
      · exact a2 ev hev
      · exact b2 ev hev
    · intro hn
      show (applyAll ops (apply st o)).ents.length = _
      rw [b4 (fun fd pr imm d f h => hn fd pr imm d f (List.mem_cons_of_mem _ h)),
        a4 (fun fd pr imm d f h => hn fd pr imm d f (by rw [List.mem_singleton.mp h]; exact List.mem_cons_self))]

/-- What a visit does. -/
theorem visit_ext (immediate : Bool) (ib ob : Nat → Bool) (ops : List Op) (i : Nat) (st : St) (e : Ent)
    (he : st.ents[i]? = some e) :
    ∃ new, Ext st (visit immediate ib ob ops i st) new ∧
      (∀ ev ∈ new, isCall ev = true → ∃ h, handler immediate e = some h ∧
        ev = .called e.id immediate h e.fd e.data (ib e.fd) (ob e.fd)) ∧
      (new.filter isCall).length ≤ 1 ∧
      (∀ h, handler immediate e = some h → (ib e.fd || ob e.fd) = true →
        Ev.called e.id immediate h e.fd e.data (ib e.fd) (ob e.fd) ∈ new) ∧
      st.ents.length ≤ (visit immediate ib ob ops i st).ents.length ∧
      (NoAdd ops → (visit immediate ib ob ops i st).ents.length = st.ents.length) := by
  unfold visit
  rw [he]
  simp only []
  cases hh : handler immediate e with
  | none =>
    exact ⟨[], ext_refl st, by simp, by simp, (by intro h hx; cases hx), Nat.le_refl _, fun _ => rfl⟩
  | some g =>
    simp only []
    by_cases hr : (ib e.fd || ob e.fd) = true
    · rw [if_pos hr]
      obtain ⟨n, a1, a2, a3, a4⟩ := ext_applyAll ops
        { st with log := st.log ++ [Ev.called e.id immediate g e.fd e.data (ib e.fd) (ob e.fd)] }
      refine ⟨.called e.id immediate g e.fd e.data (ib e.fd) (ob e.fd) :: n, ⟨?_, ?_⟩, ?_, ?_, ?_, a3, a4⟩
      · rw [a1.log]; simp
      · intro j x hx
        obtain ⟨x', hx', h1, h2, h3, h4⟩ := a1.ents j x hx
        refine ⟨x', hx', h1, h2, h3, ?_⟩
        rcases h4 with h4 | ⟨h4, h5, h6⟩
        · exact Or.inl h4
        · exact Or.inr ⟨h4, h5, List.mem_cons_of_mem _ h6⟩
      · intro ev hev hc
        rcases List.mem_cons.mp hev with rfl | hev
        · exact ⟨g, rfl, rfl⟩
        · rw [a2 ev hev] at hc; cases hc
      · rw [List.filter_cons, if_pos (by rfl)]
        have : n.filter isCall = [] := by
          rw [List.filter_eq_nil_iff]
          intro ev hev hc
          rw [a2 ev hev] at hc; cases hc
        rw [this]
        exact Nat.le_refl _
      · intro h hx _
        injection hx with hx
        subst hx
        exact List.mem_cons_self
    · rw [if_neg hr]
      exact ⟨[], ext_refl st, by simp, by simp, (fun h _ hx => absurd hx hr), Nat.le_refl _, fun _ => rfl⟩

/-- What the second loop does from position `i` on. -/
theorem dispatch_ext (immediate : Bool) (ib ob : Nat → Bool) : ∀ (cs : List (List Op)) (i : Nat) (st st' : St),
    Inv st → i < st.ents.length → dispatch immediate ib ob cs i st = some st' →
    ∃ new, st'.log = st.log ++ new ∧
      (∀ (j : Nat) e, st.ents[j]? = some e → ∃ e', st'.ents[j]? = some e' ∧ After new e e') ∧
      (∀ ev ∈ new, isCall ev = true → ∃ id h fd d, ev = .called id immediate h fd d (ib fd) (ob fd) ∧
        (∃ e, st.ents[i]? = some e ∧ e.id ≤ id) ∧
        ((∀ c ∈ cs, NoAdd c) → ∃ e ∈ st.ents, e.id = id ∧ e.fd = fd ∧ handler immediate e ≠ none)) ∧
      (new.filter isCall).Pairwise (fun a b => about a < about b) ∧
      (∀ (j : Nat) e, i ≤ j → st.ents[j]? = some e → ∀ h, handler immediate e = some h → (ib e.fd || ob e.fd) = true →
        Ev.removed e.id ∈ new ∨ Ev.called e.id immediate h e.fd e.data (ib e.fd) (ob e.fd) ∈ new)
  | [], _, _, _, _, _, h => by cases h
  | c :: cs, i, st, st', hinv, hi, h => by
    have he : st.ents[i]? = some st.ents[i] := List.getElem?_eq_getElem hi
    generalize st.ents[i] = e at he
    obtain ⟨n1, v1, v2, v3, v4, v5, v6⟩ := visit_ext immediate ib ob c i st e he
    have pw1 : (n1.filter isCall).Pairwise (fun a b => about a < about b) := by
      cases hf : n1.filter isCall with
      | nil => exact List.Pairwise.nil
      | cons a l =>
        rw [hf] at v3
        cases l with
        | nil => exact List.pairwise_singleton _ _
        | cons b l => simp at v3
    unfold dispatch at h
    by_cases hl : st.ents.length = i + 1
    · rw [if_pos hl] at h
      injection h with h
      subst h
      refine ⟨n1, v1.log, v1.ents, ?_, pw1, ?_⟩
      · intro ev hev hc
        obtain ⟨g, hg, rfl⟩ := v2 ev hev hc
        exact ⟨_, _, _, _, rfl, ⟨e, he, Nat.le_refl _⟩, fun _ => ⟨e, List.mem_of_getElem? he, rfl, rfl, by rw [hg]; simp⟩⟩
      · intro j x hj hx g hg hr
        have : j = i := by
          have := (List.getElem?_eq_some_iff.mp hx).1
          omega
        subst this
        rw [he] at hx
        injection hx with hx
        subst hx
        exact Or.inr (v4 g hg hr)
    · rw [if_neg hl] at h
      obtain ⟨st1, hst1⟩ : ∃ s, s = visit immediate ib ob c i st := ⟨_, rfl⟩
      rw [← hst1] at h v1 v5 v6
      have hinv1 : Inv st1 := hst1 ▸ inv_visit immediate ib ob c i st hinv
      obtain ⟨n2, w1, w2, w3, w4, w5⟩ := dispatch_ext immediate ib ob cs (i + 1) st1 st' hinv1 (by omega) h
      -- the id at position i + 1 is larger than that at i
      have hlt : ∀ e2, st1.ents[i + 1]? = some e2 → e.id < e2.id := by
        intro e2 he2
        obtain ⟨e', he', ha⟩ := v1.ents i e he
        have hs := List.pairwise_iff_getElem.mp hinv1.sorted
        obtain ⟨p1, p2⟩ := List.getElem?_eq_some_iff.mp he'
        obtain ⟨q1, q2⟩ := List.getElem?_eq_some_iff.mp he2
        have := hs i (i + 1) p1 q1 (Nat.lt_succ_self i)
        rw [p2, q2, ha.1] at this
        exact this
      refine ⟨n1 ++ n2, by rw [w1, v1.log, List.append_assoc], ?_, ?_, ?_, ?_⟩
      · intro j x hx
        obtain ⟨x1, hx1, ha1⟩ := v1.ents j x hx
        obtain ⟨x2, hx2, ha2⟩ := w2 j x1 hx1
        exact ⟨x2, hx2, after_trans _ _ _ _ _ ha1 ha2⟩
      · intro ev hev hc
        rcases List.mem_append.mp hev with hev | hev
        · obtain ⟨g, hg, rfl⟩ := v2 ev hev hc
          exact ⟨_, _, _, _, rfl, ⟨e, he, Nat.le_refl _⟩,
            fun _ => ⟨e, List.mem_of_getElem? he, rfl, rfl, by rw [hg]; simp⟩⟩
        · obtain ⟨id, g, fd, d, hev2, ⟨e2, he2, hle⟩, hno⟩ := w3 ev hev hc
          refine ⟨id, g, fd, d, hev2, ⟨e, he, by have := hlt e2 he2; omega⟩, ?_⟩
          intro hna
          obtain ⟨x, hx, hx1, hx2, hx3⟩ := hno (fun c' hc' => hna c' (List.mem_cons_of_mem _ hc'))
          have hlen := v6 (hna c List.mem_cons_self)
          obtain ⟨k, hk⟩ := List.mem_iff_getElem?.mp hx
          have hk1 := (List.getElem?_eq_some_iff.mp hk).1
          have hy : st.ents[k]? = some st.ents[k] := List.getElem?_eq_getElem (by omega)
          obtain ⟨x', hx', ha⟩ := v1.ents k _ hy
          rw [hk] at hx'
          injection hx' with hx'
          subst hx'
          refine ⟨_, List.mem_of_getElem? hy, ?_, ?_, ?_⟩
          · rw [← ha.1]; exact hx1
          · rw [← ha.2.1]; exact hx2
          · rcases ha.2.2.2 with ⟨a1, a2⟩ | ⟨a1, a2, _⟩
            · unfold handler at hx3 ⊢
              rw [← a1, ← a2]; exact hx3
            · unfold handler at hx3
              rw [a1, a2] at hx3
              simp at hx3
      · rw [List.filter_append, List.pairwise_append]
        refine ⟨pw1, w4, ?_⟩
        intro a ha b hb
        obtain ⟨ha1, ha2⟩ := List.mem_filter.mp ha
        obtain ⟨hb1, hb2⟩ := List.mem_filter.mp hb
        obtain ⟨g, hg, rfl⟩ := v2 a ha1 ha2
        obtain ⟨id, g2, fd, d, rfl, ⟨e2, he2, hle⟩, _⟩ := w3 b hb1 hb2
        have := hlt e2 he2
        show e.id < id
        omega
      · intro j x hj hx g hg hr
        rcases Nat.eq_or_lt_of_le hj with rfl | hj
        · rw [he] at hx
          injection hx with hx
          subst hx
          exact Or.inr (List.mem_append_left _ (v4 g hg hr))
        · obtain ⟨x1, hx1, ha⟩ := v1.ents j x hx
          rcases ha.2.2.2 with ⟨a1, a2⟩ | ⟨a1, a2, a3⟩
          · have hg1 : handler immediate x1 = some g := by
              unfold handler at hg ⊢
              rw [a1, a2]; exact hg
            have := w5 j x1 hj hx1 g hg1 (by rw [ha.2.1]; exact hr)
            rw [ha.1, ha.2.1, ha.2.2.1] at this
            rcases this with t | t
            · exact Or.inl (List.mem_append_right _ t)
            · exact Or.inr (List.mem_append_right _ t)
          · exact Or.inl (List.mem_append_left _ a3)

end Verif.Sock
