import Verif.TwoHopLemmas

/-! Helper lemmas: what is recorded about a pair of neighbour and two-hop address, and how each change acts on it. -/
namespace Verif.TwoHop

/-- Neighbour `n` is recorded as leading to the two-hop address `a`, with this validity timer and these costs. -/
def At (s : St) (n a : Nat) (r : Option Nat × NbEnt) : Prop :=
  ∃ x e t, s.nbr n = some x ∧ e ∈ x.list2 ∧ s.two e.two = some t ∧ t.addr = a ∧ r.1 = e.timer ∧ r.2 ∈ t.nb ∧ r.2.nbr = n

theorem at_unique {s : St} (h : Good s) {n a : Nat} {r r' : Option Nat × NbEnt} (h1 : At s n a r) (h2 : At s n a r') : r = r' := by
  obtain ⟨x, e, t, a1, a2, a3, a4, a5, a6, a7⟩ := h1
  obtain ⟨x', e', t', b1, b2, b3, b4, b5, b6, b7⟩ := h2
  rw [a1] at b1; cases b1
  have hij : e.two = e'.two := h.inj _ _ _ _ (bk_of a3) (bk_of b3) (by simp only [a4, b4])
  have hnd := h.nd1 _ _ (lk_of a1)
  rw [List.map_map] at hnd
  have hee : e = e' := List.inj_on_of_nodup_map hnd a2 b2 hij
  subst hee
  rw [a3] at b3; cases b3
  have hnn := (h.nd2 _ _ (bk_of a3)).1
  have hbb : r.2 = r'.2 := List.inj_on_of_nodup_map hnn a6 b6 (a7.trans b7.symm)
  exact Prod.ext (a5.trans b5.symm) hbb

theorem at_of_link {s : St} (h : Good s) {n : Nat} {x : Nbr} (hx : s.nbr n = some x) {e : L2} (he : e ∈ x.list2) {t : Two}
    (ht : s.two e.two = some t) : ∃ b, At s n t.addr (e.timer, b) := by
  obtain ⟨y, hy, hn⟩ := h.fwd _ _ (lk_of hx) (e.lid, e.two) (List.mem_map.2 ⟨e, he, rfl⟩)
  simp only [bk_of ht] at hy
  cases hy
  obtain ⟨b, hb, hb'⟩ := List.mem_map.1 hn
  exact ⟨b, x, e, t, hx, he, ht, rfl, rfl, hb, hb'⟩

theorem lid_inj {s : St} (h : Good s) {n : Nat} {x : Nbr} (hx : s.nbr n = some x) {e e' : L2} (he : e ∈ x.list2) (he' : e' ∈ x.list2)
    (hl : e.lid = e'.lid) : e = e' := by
  have hnd := h.lids _ _ (lk_of hx)
  rw [List.map_map] at hnd
  exact List.inj_on_of_nodup_map hnd he he' hl

theorem two_inj {s : St} (h : Good s) {n : Nat} {x : Nbr} (hx : s.nbr n = some x) {e e' : L2} (he : e ∈ x.list2) (he' : e' ∈ x.list2)
    (hl : e.two = e'.two) : e = e' := by
  have hnd := h.nd1 _ _ (lk_of hx)
  rw [List.map_map] at hnd
  exact List.inj_on_of_nodup_map hnd he he' hl

theorem addr_inj {s : St} (h : Good s) {i j : Nat} {t u : Two} (ht : s.two i = some t) (hu : s.two j = some u) (hau : t.addr = u.addr) :
    i = j := h.inj _ _ _ _ (bk_of ht) (bk_of hu) hau

/-- Changes of neighbour entries that keep the list do not matter. -/
theorem at_modNbr {s : St} {m : Nat} {f : Nbr → Nbr} (hf : ∀ x, (f x).list2 = x.list2) (k b : Nat) (r : Option Nat × NbEnt) :
    At (modNbr s m f) k b r ↔ At s k b r := by
  unfold At modNbr
  simp only
  constructor
  · rintro ⟨x, e, t, a1, a2, a3⟩
    by_cases hk : k = m
    · rw [if_pos hk] at a1
      cases hx : s.nbr k with
      | none => rw [hx] at a1; cases a1
      | some z => rw [hx] at a1; cases a1; rw [hf] at a2; exact ⟨z, e, t, rfl, a2, a3⟩
    · rw [if_neg hk] at a1; exact ⟨x, e, t, a1, a2, a3⟩
  · rintro ⟨x, e, t, a1, a2, a3⟩
    by_cases hk : k = m
    · rw [if_pos hk, a1]; exact ⟨f x, e, t, rfl, by rw [hf]; exact a2, a3⟩
    · rw [if_neg hk]; exact ⟨x, e, t, a1, a2, a3⟩

theorem at_setTimer {s : St} (h : Good s) {n : Nat} {x : Nbr} (hx : s.nbr n = some x) {e : L2} (he : e ∈ x.list2) {t : Two}
    (ht : s.two e.two = some t) (now v k b : Nat) (r : Option Nat × NbEnt) :
    At (setTimer s n e.lid now v) k b r ↔
      if k = n ∧ b = t.addr then (∃ r0, At s k b r0 ∧ r = (if v = 0 then none else some (now + v), r0.2)) else At s k b r := by
  have hnb : ∀ i, (setTimer s n e.lid now v).nbr i = if i = n then some { x with list2 := x.list2.map (fun e' =>
      if e'.lid = e.lid then { e' with timer := if v = 0 then none else some (now + v) } else e') } else s.nbr i := by
    intro i; unfold setTimer modNbr; simp only
    by_cases hi : i = n
    · rw [if_pos hi, if_pos hi, hi, hx]; rfl
    · rw [if_neg hi, if_neg hi]
  have htw : (setTimer s n e.lid now v).two = s.two := rfl
  generalize (if v = 0 then (none : Option Nat) else some (now + v)) = tm at *
  unfold At
  rw [htw]
  by_cases hk : k = n
  · subst hk
    simp only [hnb, if_pos, true_and]
    by_cases hb : b = t.addr
    · rw [if_pos hb]
      constructor
      · rintro ⟨x', e', t', a1, a2, a3, a4, a5, a6, a7⟩
        cases a1
        obtain ⟨e0, he0, rfl⟩ := List.mem_map.1 a2
        have htwo : ∀ c : Prop, [Decidable c] → (if c then { e0 with timer := tm } else e0).two = e0.two := by
          intro c _; split <;> rfl
        rw [htwo] at a3
        have : e0.two = e.two := addr_inj h a3 ht (a4.trans hb)
        have hee := two_inj h hx he0 he this
        subst hee
        rw [if_pos rfl] at a5
        rw [ht] at a3; cases a3
        exact ⟨(e0.timer, r.2), ⟨x, e0, t, hx, he, ht, a4, rfl, a6, a7⟩, Prod.ext a5 rfl⟩
      · rintro ⟨r0, ⟨x', e', t', a1, a2, a3, a4, a5, a6, a7⟩, rfl⟩
        rw [hx] at a1; cases a1
        have : e'.two = e.two := addr_inj h a3 ht (a4.trans hb)
        have hee := two_inj h hx a2 he this
        subst hee
        refine ⟨_, { e' with timer := tm }, t', rfl, ?_, a3, a4, rfl, a6, a7⟩
        exact List.mem_map.2 ⟨e', a2, by rw [if_pos rfl]⟩
    · rw [if_neg hb]
      constructor
      · rintro ⟨x', e', t', a1, a2, a3, a4, a5, a6, a7⟩
        cases a1
        obtain ⟨e0, he0, rfl⟩ := List.mem_map.1 a2
        by_cases hl : e0.lid = e.lid
        · have := lid_inj h hx he0 he hl
          subst this
          rw [if_pos rfl] at a3
          rw [ht] at a3; cases a3
          exact absurd a4.symm hb
        · rw [if_neg hl] at a3 a5
          exact ⟨x, e0, t', hx, he0, a3, a4, a5, a6, a7⟩
      · rintro ⟨x', e', t', a1, a2, a3, a4, a5, a6, a7⟩
        rw [hx] at a1; cases a1
        refine ⟨_, e', t', rfl, List.mem_map.2 ⟨e', a2, ?_⟩, a3, a4, a5, a6, a7⟩
        rw [if_neg]
        intro hl
        have := lid_inj h hx a2 he hl
        subst this
        rw [ht] at a3; cases a3
        exact hb a4.symm
  · rw [if_neg (fun hc => hk hc.1)]
    simp only [hnb, if_neg hk]

/-- Changing the costs of one neighbour in one two-hop entry. -/
theorem at_costs {s : St} (h : Good s) {n i : Nat} {t : Two} (ht : s.two i = some t) (hn : ∃ x, s.nbr n = some x) (g : NbEnt → NbEnt) (hg : ∀ b, (g b).nbr = b.nbr)
    (k b : Nat) (r : Option Nat × NbEnt) :
    At (modTwo s i (fun t => { t with nb := t.nb.map (fun b => if b.nbr = n then g b else b) })) k b r ↔
      if k = n ∧ b = t.addr then (∃ r0, At s k b r0 ∧ r = (r0.1, g r0.2)) else At s k b r := by
  have htw : ∀ j, (modTwo s i (fun t => { t with nb := t.nb.map (fun b => if b.nbr = n then g b else b) })).two j =
      if j = i then some { t with nb := t.nb.map (fun b => if b.nbr = n then g b else b) } else s.two j := by
    intro j; unfold modTwo; simp only
    by_cases hj : j = i
    · rw [if_pos hj, if_pos hj, hj, ht]; rfl
    · rw [if_neg hj, if_neg hj]
  have hnbr : (modTwo s i (fun t => { t with nb := t.nb.map (fun b => if b.nbr = n then g b else b) })).nbr = s.nbr := rfl
  have hif : ∀ b0 : NbEnt, (if b0.nbr = n then g b0 else b0).nbr = b0.nbr := by
    intro b0; split
    · exact hg b0
    · rfl
  unfold At
  rw [hnbr]
  simp only [htw]
  by_cases hc : k = n ∧ b = t.addr
  · obtain ⟨rfl, rfl⟩ := hc
    rw [if_pos ⟨rfl, rfl⟩]
    constructor
    · rintro ⟨x', e', t', a1, a2, a3, a4, a5, a6, a7⟩
      by_cases hj : e'.two = i
      · rw [if_pos hj] at a3; cases a3
        obtain ⟨b0, hb0, hb1⟩ := List.mem_map.1 a6
        have hb2 : b0.nbr = k := by rw [← hif b0, hb1]; exact a7
        rw [if_pos hb2] at hb1
        exact ⟨(r.1, b0), ⟨x', e', t, a1, a2, by rw [hj]; exact ht, rfl, a5, hb0, hb2⟩, Prod.ext rfl hb1.symm⟩
      · rw [if_neg hj] at a3
        exact absurd (addr_inj h a3 ht a4) hj
    · rintro ⟨r0, ⟨x', e', t', a1, a2, a3, a4, a5, a6, a7⟩, rfl⟩
      have hj : e'.two = i := addr_inj h a3 ht a4
      rw [hj, ht] at a3; cases a3
      refine ⟨x', e', _, a1, a2, if_pos hj, rfl, a5, ?_, (hg _).trans a7⟩
      exact List.mem_map.2 ⟨r0.2, a6, by rw [if_pos a7]⟩
  · rw [if_neg hc]
    constructor
    · rintro ⟨x', e', t', a1, a2, a3, a4, a5, a6, a7⟩
      by_cases hj : e'.two = i
      · rw [if_pos hj] at a3; cases a3
        obtain ⟨b0, hb0, hb1⟩ := List.mem_map.1 a6
        have hb2 : b0.nbr = k := by rw [← hif b0, hb1]; exact a7
        have hkn : k ≠ n := fun hk => hc ⟨hk, a4.symm⟩
        rw [if_neg (by rw [hb2]; exact hkn)] at hb1
        exact ⟨x', e', t, a1, a2, by rw [hj]; exact ht, a4, a5, by rw [← hb1]; exact hb0, a7⟩
      · rw [if_neg hj] at a3
        exact ⟨x', e', t', a1, a2, a3, a4, a5, a6, a7⟩
    · rintro ⟨x', e', t', a1, a2, a3, a4, a5, a6, a7⟩
      by_cases hj : e'.two = i
      · rw [hj, ht] at a3; cases a3
        have hkn : k ≠ n := fun hk => hc ⟨hk, a4.symm⟩
        refine ⟨x', e', _, a1, a2, if_pos hj, a4, a5, ?_, a7⟩
        exact List.mem_map.2 ⟨r.2, a6, by rw [if_neg (by rw [a7]; exact hkn)]⟩
      · exact ⟨x', e', t', a1, a2, by rw [if_neg hj]; exact a3, a4, a5, a6, a7⟩

/-- A new entry as `linking_this_2_entries` makes it. -/
def fresh (n : Nat) : NbEnt := { nbr := n, second := BROKEN, path := BROKEN, saved := BROKEN }

theorem at_link {s : St} (h : Good s) {n i : Nat} {x : Nbr} (hx : s.nbr n = some x) {t : Two} (ht : s.two i = some t)
    (hnew : ∀ e ∈ x.list2, e.two ≠ i) (k b : Nat) (r : Option Nat × NbEnt) :
    At (link s n i) k b r ↔ if k = n ∧ b = t.addr then r = (none, fresh n) else At s k b r := by
  have htw : ∀ j, (link s n i).two j = if j = i then some { t with cnt := t.cnt + 1, nb := fresh n :: t.nb } else s.two j := by
    intro j
    show (modTwo s i (fun x => { x with cnt := x.cnt + 1, nb := fresh n :: x.nb })).two j = _
    unfold modTwo; simp only
    by_cases hj : j = i
    · rw [if_pos hj, if_pos hj, hj, ht]; rfl
    · rw [if_neg hj, if_neg hj]
  have hnb : ∀ j, (link s n i).nbr j = if j = n then some { x with list2 := { lid := s.next, two := i, timer := none } :: x.list2 } else s.nbr j := by
    intro j
    show (modNbr _ n (fun x => { x with list2 := { lid := s.next, two := i, timer := none } :: x.list2 })).nbr j = _
    unfold modNbr modTwo; simp only
    by_cases hj : j = n
    · rw [if_pos hj, if_pos hj, hj, hx]; rfl
    · rw [if_neg hj, if_neg hj]
  have hnt : ∀ b ∈ t.nb, b.nbr ≠ n := by
    intro b hb hbn
    obtain ⟨l, hl, hl'⟩ := h.bwd _ _ (bk_of ht) n (List.mem_map.2 ⟨b, hb, hbn⟩)
    rw [lk_of hx] at hl; cases hl
    rw [List.map_map] at hl'
    obtain ⟨e, he, he'⟩ := List.mem_map.1 hl'
    exact hnew e he he'
  unfold At
  simp only [htw, hnb]
  by_cases hk : k = n
  · subst hk
    simp only [if_pos, true_and]
    by_cases hb : b = t.addr
    · rw [if_pos hb]
      constructor
      · rintro ⟨x', e', t', a1, a2, a3, a4, a5, a6, a7⟩
        cases a1
        have hj : e'.two = i := by
          by_cases hj : e'.two = i
          · exact hj
          · rw [if_neg hj] at a3; exact addr_inj h a3 ht (a4.trans hb)
        rcases List.mem_cons.1 a2 with rfl | a2
        · rw [if_pos rfl] at a3; cases a3
          rcases List.mem_cons.1 a6 with a6 | a6
          · exact Prod.ext a5 a6
          · exact absurd a7 (hnt _ a6)
        · exact absurd hj (hnew _ a2)
      · rintro rfl
        exact ⟨_, _, _, rfl, List.mem_cons_self .., if_pos rfl, hb.symm, rfl, List.mem_cons_self .., rfl⟩
    · rw [if_neg hb]
      constructor
      · rintro ⟨x', e', t', a1, a2, a3, a4, a5, a6, a7⟩
        cases a1
        rcases List.mem_cons.1 a2 with rfl | a2
        · rw [if_pos rfl] at a3; cases a3; exact absurd a4.symm hb
        · rw [if_neg (hnew _ a2)] at a3; exact ⟨x, e', t', hx, a2, a3, a4, a5, a6, a7⟩
      · rintro ⟨x', e', t', a1, a2, a3, a4, a5, a6, a7⟩
        rw [hx] at a1; cases a1
        exact ⟨_, e', t', rfl, List.mem_cons_of_mem _ a2, by rw [if_neg (hnew _ a2)]; exact a3, a4, a5, a6, a7⟩
  · simp only [hk, false_and, if_false]
    constructor
    · rintro ⟨x', e', t', a1, a2, a3, a4, a5, a6, a7⟩
      by_cases hj : e'.two = i
      · rw [if_pos hj] at a3; cases a3
        rcases List.mem_cons.1 a6 with a6 | a6
        · rw [a6] at a7; exact absurd a7.symm hk
        · exact ⟨x', e', t, a1, a2, by rw [hj]; exact ht, a4, a5, a6, a7⟩
      · rw [if_neg hj] at a3; exact ⟨x', e', t', a1, a2, a3, a4, a5, a6, a7⟩
    · rintro ⟨x', e', t', a1, a2, a3, a4, a5, a6, a7⟩
      by_cases hj : e'.two = i
      · rw [hj, ht] at a3; cases a3
        exact ⟨x', e', _, a1, a2, if_pos hj, a4, a5, List.mem_cons_of_mem _ a6, a7⟩
      · exact ⟨x', e', t', a1, a2, by rw [if_neg hj]; exact a3, a4, a5, a6, a7⟩

theorem at_newTwo {s : St} (h : Good s) (a k b : Nat) (r : Option Nat × NbEnt) : At (newTwo s a) k b r ↔ At s k b r := by
  have htw : ∀ j, (newTwo s a).two j = if j = s.next then some { addr := a, cnt := 0, nb := [] } else s.two j := fun _ => rfl
  have hnbr : (newTwo s a).nbr = s.nbr := rfl
  unfold At
  rw [hnbr]
  simp only [htw]
  constructor
  · rintro ⟨x', e', t', a1, a2, a3, a4, a5, a6, a7⟩
    by_cases hj : e'.two = s.next
    · rw [if_pos hj] at a3; cases a3; cases a6
    · rw [if_neg hj] at a3; exact ⟨x', e', t', a1, a2, a3, a4, a5, a6, a7⟩
  · rintro ⟨x', e', t', a1, a2, a3, a4, a5, a6, a7⟩
    refine ⟨x', e', t', a1, a2, ?_, a4, a5, a6, a7⟩
    rw [if_neg, a3]
    intro hj
    have := h.lim1 _ _ (bk_of a3)
    omega

theorem at_unlink {s s' : St} (h : Good s) {n : Nat} {x : Nbr} (hx : s.nbr n = some x) {e : L2} (he : e ∈ x.list2) {t : Two}
    (ht : s.two e.two = some t) (hs : unlink n s e = some s') (k b : Nat) (r : Option Nat × NbEnt) :
    At s' k b r ↔ ¬ (k = n ∧ b = t.addr) ∧ At s k b r := by
  obtain ⟨s'', e0, -, -, -, enb, t', ht', hcase⟩ := unlink_eq h hx he
  rw [e0] at hs; cases hs
  rw [ht] at ht'; cases ht'
  have hcnt := h.nd2 _ _ (bk_of ht)
  have hnm : n ∈ t.nb.map NbEnt.nbr := by
    obtain ⟨y, hy, hn⟩ := h.fwd _ _ (lk_of hx) (e.lid, e.two) (List.mem_map.2 ⟨e, he, rfl⟩)
    simp only [bk_of ht] at hy; cases hy; exact hn
  have htw : ∀ j u, s'.two j = some u → ∃ v, s.two j = some v ∧ v.addr = u.addr ∧ (∀ q ∈ u.nb, q ∈ v.nb) ∧ (j = e.two → ∀ q ∈ u.nb, q.nbr ≠ n) := by
    intro j u hu
    rcases hcase with ⟨hc, e3, -⟩ | ⟨hc, e3, -⟩
    · rw [e3] at hu
      by_cases hj : j = e.two
      · rw [if_pos hj] at hu; cases hu
      · rw [if_neg hj] at hu; exact ⟨u, hu, rfl, fun _ hq => hq, fun hc => absurd hc hj⟩
    · rw [e3] at hu
      by_cases hj : j = e.two
      · rw [if_pos hj] at hu; cases hu
        refine ⟨t, by rw [hj]; exact ht, rfl, fun q hq => (List.mem_filter.1 hq).1, fun _ q hq => ?_⟩
        exact bne_iff_ne.1 (List.mem_filter.1 hq).2
      · rw [if_neg hj] at hu; exact ⟨u, hu, rfl, fun _ hq => hq, fun hc => absurd hc hj⟩
  constructor
  · rintro ⟨x', e', t', a1, a2, a3, a4, a5, a6, a7⟩
    obtain ⟨v, hv, hva, hvn, hvk⟩ := htw _ _ a3
    have hkb : ¬ (k = n ∧ b = t.addr) := by
      rintro ⟨rfl, rfl⟩
      have hj : e'.two = e.two := addr_inj h hv ht (hva.trans a4)
      exact hvk hj _ a6 a7
    refine ⟨hkb, ?_⟩
    rw [enb] at a1
    by_cases hk : k = n
    · rw [if_pos hk] at a1; cases a1
      exact ⟨x, e', v, by rw [hk]; exact hx, (List.mem_filter.1 a2).1, hv, hva.trans a4, a5, hvn _ a6, a7⟩
    · rw [if_neg hk] at a1
      exact ⟨x', e', v, a1, a2, hv, hva.trans a4, a5, hvn _ a6, a7⟩
  · rintro ⟨hkb, x', e', t', a1, a2, a3, a4, a5, a6, a7⟩
    have hxx : ∃ x'', s'.nbr k = some x'' ∧ e' ∈ x''.list2 := by
      rw [enb]
      by_cases hk : k = n
      · rw [if_pos hk]
        rw [hk, hx] at a1; cases a1
        refine ⟨_, rfl, List.mem_filter.2 ⟨a2, bne_iff_ne.2 ?_⟩⟩
        intro hl
        have := lid_inj h hx a2 he hl
        subst this
        rw [ht] at a3; cases a3
        exact hkb ⟨hk, a4.symm⟩
      · rw [if_neg hk]; exact ⟨x', a1, a2⟩
    obtain ⟨x'', hx1, hx2⟩ := hxx
    by_cases hj : e'.two = e.two
    · rw [hj, ht] at a3; cases a3
      have hkn : k ≠ n := fun hk => hkb ⟨hk, a4.symm⟩
      have hlen : ((t.nb.map NbEnt.nbr).filter (· != n)).length + 1 = (t.nb.map NbEnt.nbr).length := by
        have := hcnt.1.erase_eq_filter n
        rw [← this, List.length_erase_of_mem hnm]
        have : 0 < (t.nb.map NbEnt.nbr).length := List.length_pos_of_mem hnm
        omega
      have hpos : 0 < ((t.nb.map NbEnt.nbr).filter (· != n)).length := by
        refine List.length_pos_of_mem (a := k) (List.mem_filter.2 ⟨List.mem_map.2 ⟨_, a6, a7⟩, bne_iff_ne.2 hkn⟩)
      have hc2 : t.cnt = ((t.nb.map NbEnt.nbr).length : Nat) := hcnt.2
      rcases hcase with ⟨hc, e3, -⟩ | ⟨hc, e3, -⟩
      · omega
      · refine ⟨x'', e', _, hx1, hx2, (e3 _).trans (if_pos hj), a4, a5, ?_, a7⟩
        exact List.mem_filter.2 ⟨a6, bne_iff_ne.2 (by rw [a7]; exact hkn)⟩
    · refine ⟨x'', e', t', hx1, hx2, ?_, a4, a5, a6, a7⟩
      rcases hcase with ⟨hc, e3, -⟩ | ⟨hc, e3, -⟩ <;> rw [e3, if_neg hj, a3]

theorem at_delTwo {s s' : St} (h : Good s) (hF : Full s) {i : Nat} {t : Two} (ht : s.two i = some t) (hs : delTwo s i = some s')
    (k b : Nat) (r : Option Nat × NbEnt) : At s' k b r ↔ b ≠ t.addr ∧ At s k b r := by
  obtain ⟨s'', h0, h1, h2, -⟩ := delTwo_eq h hF ht
  rw [h0] at hs; cases hs
  constructor
  · rintro ⟨x', e', t', a1, a2, a3, a4, a5, a6, a7⟩
    rw [h1] at a3
    by_cases hj : e'.two = i
    · rw [if_pos hj] at a3; cases a3
    · rw [if_neg hj] at a3
      refine ⟨fun hb => hj (addr_inj h a3 ht (a4.trans hb)), ?_⟩
      rw [h2] at a1
      cases hx : s.nbr k with
      | none => rw [hx] at a1; cases a1
      | some x => rw [hx] at a1; cases a1; exact ⟨x, e', t', hx, (List.mem_filter.1 a2).1, a3, a4, a5, a6, a7⟩
  · rintro ⟨hb, x', e', t', a1, a2, a3, a4, a5, a6, a7⟩
    have hj : e'.two ≠ i := by
      intro hj
      rw [hj, ht] at a3; cases a3
      exact hb a4.symm
    refine ⟨without i x', e', t', by rw [h2, a1]; rfl, List.mem_filter.2 ⟨a2, bne_iff_ne.2 hj⟩, by rw [h1, if_neg hj, a3], a4, a5, a6, a7⟩

theorem at_freeNbr {s : St} {n : Nat} (k b : Nat) (r : Option Nat × NbEnt) : At (freeNbr s n) k b r ↔ k ≠ n ∧ At s k b r := by
  unfold At freeNbr
  simp only
  by_cases hk : k = n
  · constructor
    · rintro ⟨x', e', t', a1, -⟩; rw [if_pos hk] at a1; cases a1
    · rintro ⟨hc, -⟩; exact absurd hk hc
  · simp only [if_neg hk]
    exact ⟨fun hh => ⟨hk, hh⟩, fun hh => hh.2⟩

/-! ## Records as a function -/

theorem at_pass1 {env : Env} (henv : env.Coherent) {lq : Bool} {n now vtime : Nat} {s s' : St} (h : Good s)
    {x : Nbr} (hx : s.nbr n = some x) (m : Item) (hs : pass1 env lq n now vtime s m = some s') (k b : Nat) (r : Option Nat × NbEnt) :
    At s' k b r ↔
      if k = n ∧ env.own m.addr = false ∧ symMpr m = true ∧ b = mainOf env m.addr then
        (∃ r0, At s k b r0 ∧ r = (if vtime = 0 then none else some (now + vtime), { r0.2 with path := if lq then BROKEN else r0.2.path })) ∨
        ((∀ r0, ¬ At s k b r0) ∧ r = (none, fresh n))
      else At s k b r := by
  unfold pass1 at hs
  by_cases ho : env.own m.addr = true
  · rw [if_pos ho] at hs; cases hs
    rw [if_neg (by rintro ⟨-, hc, -⟩; rw [ho] at hc; cases hc)]
  · rw [if_neg ho] at hs
    have ho' : env.own m.addr = false := by simpa using ho
    by_cases hsm : symMpr m = true
    · rw [if_pos hsm, hx] at hs
      simp only at hs
      obtain ⟨c, hc, hc1, hc2⟩ := scan_spec h hx (mainOf env m.addr)
      rw [hc] at hs
      have hcond : (k = n ∧ env.own m.addr = false ∧ symMpr m = true ∧ b = mainOf env m.addr) ↔ (k = n ∧ b = mainOf env m.addr) :=
        ⟨fun hh => ⟨hh.1, hh.2.2.2⟩, fun hh => ⟨hh.1, ho', hsm, hh.2⟩⟩
      rw [if_congr hcond rfl rfl]
      cases c with
      | some e =>
        obtain ⟨he, t, ht, hta⟩ := hc1 e rfl
        have hat := at_setTimer h hx he ht now vtime
        have hsame := setTimer_same s n e.lid now vtime
        obtain ⟨b0, hb0⟩ := at_of_link h hx he ht
        cases lq with
        | false =>
          simp only [Bool.false_eq_true, if_false] at hs
          cases hs
          rw [hat, hta]
          by_cases hkb : k = n ∧ b = mainOf env m.addr
          · rw [if_pos hkb, if_pos hkb]
            constructor
            · rintro ⟨r0, a1, rfl⟩; exact Or.inl ⟨r0, a1, rfl⟩
            · rintro (⟨r0, a1, rfl⟩ | ⟨a1, -⟩)
              · exact ⟨r0, a1, rfl⟩
              · obtain ⟨rfl, rfl⟩ := hkb
                rw [hta] at hb0
                exact absurd hb0 (a1 _)
          · rw [if_neg hkb, if_neg hkb]
        | true =>
          simp only [if_true] at hs
          cases hs
          have hcost := at_costs (h.same hsame) (n := n) (i := e.two) (t := t) ht (g := fun b => { b with path := BROKEN })
            (by obtain ⟨x', hx', -⟩ := of_lk ((hsame.lk n).trans (lk_of hx)); exact ⟨x', hx'⟩) (fun _ => rfl) k b r
          unfold resetCost
          rw [hcost, hta]
          by_cases hkb : k = n ∧ b = mainOf env m.addr
          · rw [if_pos hkb, if_pos hkb]
            constructor
            · rintro ⟨r0, a1, rfl⟩
              rw [hat, hta, if_pos hkb] at a1
              obtain ⟨r1, a2, rfl⟩ := a1
              exact Or.inl ⟨r1, a2, rfl⟩
            · rintro (⟨r0, a1, rfl⟩ | ⟨a1, -⟩)
              · refine ⟨(if vtime = 0 then none else some (now + vtime), r0.2), ?_, rfl⟩
                rw [hat, hta, if_pos hkb]
                exact ⟨r0, a1, rfl⟩
              · obtain ⟨rfl, rfl⟩ := hkb
                rw [hta] at hb0
                exact absurd hb0 (a1 _)
          · rw [if_neg hkb, if_neg hkb, hat, hta, if_neg hkb]
      | none =>
        simp only at hs
        have hno := hc2 rfl
        have hnoAt : ∀ r0, ¬ At s n (mainOf env m.addr) r0 := by
          rintro r0 ⟨x', e', t', a1, a2, a3, a4, -⟩
          rw [hx] at a1; cases a1
          exact hno e' a2 t' a3 a4
        cases hlt : lookupTwo env s (mainOf env m.addr) with
        | none =>
          rw [hlt] at hs; simp only at hs; cases hs
          have hna := lookupTwo_none hlt
          have hg := newTwo_good h (a := mainOf env m.addr) (by
            intro i y hy
            obtain ⟨t, ht, rfl⟩ := of_bk hy
            exact hna i ((h.tw i).2 ⟨_, hy⟩) t ht)
          have hx2 : (newTwo s (mainOf env m.addr)).nbr n = some x := hx
          have ht2 : (newTwo s (mainOf env m.addr)).two s.next = some { addr := mainOf env m.addr, cnt := 0, nb := [] } := by
            unfold newTwo; simp
          rw [at_link hg hx2 ht2 (by
            intro e he hc'
            obtain ⟨y, hy, -⟩ := h.fwd _ _ (lk_of hx) (e.lid, e.two) (List.mem_map.2 ⟨e, he, rfl⟩)
            have := h.lim1 _ _ hy
            simp only at this
            omega), at_newTwo h]
          by_cases hkb : k = n ∧ b = mainOf env m.addr
          · rw [if_pos hkb, if_pos hkb]
            obtain ⟨rfl, rfl⟩ := hkb
            constructor
            · rintro rfl; exact Or.inr ⟨hnoAt, rfl⟩
            · rintro (⟨r0, a1, -⟩ | ⟨-, a2⟩)
              · exact absurd a1 (hnoAt r0)
              · exact a2
          · rw [if_neg hkb, if_neg hkb]
        | some t =>
          rw [hlt] at hs; simp only at hs; cases hs
          obtain ⟨y, hy, hya⟩ := lookupTwo_some hlt
          have haddr : y.addr = mainOf env m.addr := hya.resolve_right (henv.mainOf _ _)
          rw [at_link h hx hy (by
            intro e he hc'
            exact hno e he y (by rw [hc']; exact hy) haddr), haddr]
          by_cases hkb : k = n ∧ b = mainOf env m.addr
          · rw [if_pos hkb, if_pos hkb]
            obtain ⟨rfl, rfl⟩ := hkb
            constructor
            · rintro rfl; exact Or.inr ⟨hnoAt, rfl⟩
            · rintro (⟨r0, a1, -⟩ | ⟨-, a2⟩)
              · exact absurd a1 (hnoAt r0)
              · exact a2
          · rw [if_neg hkb, if_neg hkb]
    · rw [if_neg hsm] at hs; cases hs
      rw [if_neg (by rintro ⟨-, -, hc, -⟩; exact hsm hc)]

theorem at_pass2 {env : Env} {n c : Nat} {s s' : St} (h : Good s) {x : Nbr} (hx : s.nbr n = some x) (m : Item)
    (hs : pass2 env n c s m = some s') (k b : Nat) (r : Option Nat × NbEnt) :
    At s' k b r ↔
      if k = n ∧ env.own m.addr = false ∧ symMpr m = true ∧ b = m.addr then (∃ r0, At s k b r0 ∧ r = (r0.1, better c m.cost r0.2))
      else At s k b r := by
  unfold pass2 at hs
  by_cases ho : env.own m.addr = true
  · rw [if_pos ho] at hs; cases hs
    rw [if_neg (by rintro ⟨-, hc, -⟩; rw [ho] at hc; cases hc)]
  · rw [if_neg ho] at hs
    have ho' : env.own m.addr = false := by simpa using ho
    by_cases hsm : symMpr m = true
    · rw [if_pos hsm, hx] at hs
      simp only at hs
      obtain ⟨w, hw, hw1, hw2⟩ := scan_spec h hx m.addr
      rw [hw] at hs
      have hcond : (k = n ∧ env.own m.addr = false ∧ symMpr m = true ∧ b = m.addr) ↔ (k = n ∧ b = m.addr) :=
        ⟨fun hh => ⟨hh.1, hh.2.2.2⟩, fun hh => ⟨hh.1, ho', hsm, hh.2⟩⟩
      rw [if_congr hcond rfl rfl]
      cases w with
      | none =>
        simp only at hs; cases hs
        by_cases hkb : k = n ∧ b = m.addr
        · rw [if_pos hkb]
          obtain ⟨rfl, rfl⟩ := hkb
          have hno : ∀ r0, ¬ At s k m.addr r0 := by
            rintro r0 ⟨x', e', t', a1, a2, a3, a4, -⟩
            rw [hx] at a1; cases a1
            exact hw2 rfl e' a2 t' a3 a4
          constructor
          · intro hh; exact absurd hh (hno r)
          · rintro ⟨r0, hh, -⟩; exact absurd hh (hno r0)
        · rw [if_neg hkb]
      | some e =>
        simp only at hs; cases hs
        obtain ⟨he, t, ht, hta⟩ := hw1 e rfl
        rw [at_costs h ht ⟨x, hx⟩ (better c m.cost) (better_nbr c m.cost) k b r, hta]
    · rw [if_neg hsm] at hs; cases hs
      rw [if_neg (by rintro ⟨-, -, hc, -⟩; exact hsm hc)]

end Verif.TwoHop
