import Verif.TunnelModel

/-
The invariants of the tunnels and of the interface names.
-/

namespace Verif.Tunnel

/-- In how many lists a gateway is. -/
def total (st : St) (g : Nat) : Nat := st.l4.count g + st.l6.count g

/-- The invariant of the tunnels. -/
structure Inv (cfg : Cfg) (st : St) : Prop where
  kern : st.kern = st.tree.map (fun e => (e.name, e.target))
  tnd : (st.tree.map (·.target)).Nodup
  nnd : (st.tree.map (·.name)).Nodup
  use : ∀ e ∈ st.tree, e.usage = total st e.target ∧ 0 < e.usage
  cov : ∀ f g, g ∈ st.list f → ∃ e ∈ st.tree, e.target = g
  nd : ∀ f, (st.list f).Nodup
  len : ∀ f, (st.list f).length ≤ cfg.use

theorem Inv.of_eq {cfg : Cfg} {st st' : St} (h : Inv cfg st) (hk : st'.kern = st.kern)
    (ht : st'.tree = st.tree) (h4 : st'.l4 = st.l4) (h6 : st'.l6 = st.l6) : Inv cfg st' := by
  have hl : ∀ f, st'.list f = st.list f := by intro f; cases f <;> simp [St.list, h4, h6]
  have htot : ∀ g, total st' g = total st g := by intro g; simp [total, h4, h6]
  constructor
  · rw [hk, ht]; exact h.kern
  · rw [ht]; exact h.tnd
  · rw [ht]; exact h.nnd
  · intro e he; rw [htot]; rw [ht] at he; exact h.use e he
  · intro f g hg; rw [hl] at hg; rw [ht]; exact h.cov f g hg
  · intro f; rw [hl]; exact h.nd f
  · intro f; rw [hl]; exact h.len f

theorem list_setList (st : St) (f : Fam) (l : List Nat) : (st.setList f l).list f = l := by
  cases f <;> rfl

theorem list_setList_other (st : St) {f f' : Fam} (l : List Nat) (h : f' ≠ f) :
    (st.setList f l).list f' = st.list f' := by
  cases f <;> cases f' <;> first | rfl | exact absurd rfl h

theorem setList_slots (st : St) (f : Fam) (l : List Nat) : (st.setList f l).slots = st.slots := by
  cases f <;> rfl

theorem setList_tree (st : St) (f : Fam) (l : List Nat) : (st.setList f l).tree = st.tree := by
  cases f <;> rfl

theorem setList_kern (st : St) (f : Fam) (l : List Nat) : (st.setList f l).kern = st.kern := by
  cases f <;> rfl

theorem setList_ctr (st : St) (f : Fam) (l : List Nat) : (st.setList f l).ctr = st.ctr := by
  cases f <;> rfl

theorem total_cons (st : St) (f : Fam) (g x : Nat) :
    total (st.setList f (g :: st.list f)) x = total st x + if x = g then 1 else 0 := by
  by_cases h : x = g
  · subst h
    cases f <;> simp [total, St.setList, St.list] <;> omega
  · have h' : g ≠ x := Ne.symm h
    cases f <;> simp [total, St.setList, St.list, h, List.count_cons_of_ne h']

theorem total_erase (st : St) (f : Fam) (g x : Nat) (hg : g ∈ st.list f) :
    total (st.setList f ((st.list f).erase g)) x + (if x = g then 1 else 0) = total st x := by
  have hpos : 0 < (st.list f).count g := List.count_pos_iff.2 hg
  by_cases h : x = g
  · subst h
    cases f with
    | v4 =>
      have h0 : 0 < st.l4.count x := hpos
      simp only [total, St.setList, St.list, List.count_erase_self, if_true]
      omega
    | v6 =>
      have h0 : 0 < st.l6.count x := hpos
      simp only [total, St.setList, St.list, List.count_erase_self, if_true]
      omega
  · have h' : x ≠ g := h
    cases f <;> simp [total, St.setList, St.list, h, List.count_erase_of_ne h']

theorem total_pos {st : St} {g : Nat} : 0 < total st g ↔ ∃ f, g ∈ st.list f := by
  unfold total
  constructor
  · intro h
    by_cases h4 : 0 < st.l4.count g
    · exact ⟨.v4, List.count_pos_iff.1 h4⟩
    · exact ⟨.v6, List.count_pos_iff.1 (show 0 < st.l6.count g by omega)⟩
  · rintro ⟨f, hf⟩
    cases f
    · have := List.count_pos_iff.2 hf; simp only [St.list] at this; omega
    · have := List.count_pos_iff.2 hf; simp only [St.list] at this; omega

theorem find_target {tree : List Ent} {g : Nat} {e : Ent}
    (h : tree.find? (fun e => e.target == g) = some e) : e ∈ tree ∧ e.target = g :=
  ⟨List.mem_of_find?_eq_some h, by simpa using List.find?_some h⟩

theorem find_target_none {tree : List Ent} {g : Nat}
    (h : tree.find? (fun e => e.target == g) = none) : ∀ e ∈ tree, e.target ≠ g := by
  intro e he
  rw [List.find?_eq_none] at h
  simpa using h e he

theorem target_unique {tree : List Ent} (h : (tree.map (·.target)).Nodup) {a b : Ent}
    (ha : a ∈ tree) (hb : b ∈ tree) (hab : a.target = b.target) : a = b := by
  induction tree with
  | nil => cases ha
  | cons x xs ih =>
    simp only [List.map_cons, List.nodup_cons] at h
    rcases List.mem_cons.1 ha with hax | hax
    · rcases List.mem_cons.1 hb with hbx | hbx
      · rw [hax, hbx]
      · exact absurd (hax ▸ hab ▸ List.mem_map_of_mem hbx) h.1
    · rcases List.mem_cons.1 hb with hbx | hbx
      · exact absurd (hbx ▸ hab ▸ List.mem_map_of_mem hax) h.1
      · exact ih h.2 hax hbx

theorem name_unique {tree : List Ent} (h : (tree.map (·.name)).Nodup) {a b : Ent}
    (ha : a ∈ tree) (hb : b ∈ tree) (hab : a.name = b.name) : a = b := by
  induction tree with
  | nil => cases ha
  | cons x xs ih =>
    simp only [List.map_cons, List.nodup_cons] at h
    rcases List.mem_cons.1 ha with hax | hax
    · rcases List.mem_cons.1 hb with hbx | hbx
      · rw [hax, hbx]
      · exact absurd (hax ▸ hab ▸ List.mem_map_of_mem hbx) h.1
    · rcases List.mem_cons.1 hb with hbx | hbx
      · exact absurd (hbx ▸ hab ▸ List.mem_map_of_mem hax) h.1
      · exact ih h.2 hax hbx

theorem inv_start (cfg : Cfg) : Inv cfg (start cfg) := by
  constructor <;> (try (intro f; cases f)) <;> simp [start, St.list]

/-- What the last free of a tunnel does to kernel and tree. -/
theorem filter_kern {tree : List Ent} (ht : (tree.map (·.target)).Nodup)
    (hn : (tree.map (·.name)).Nodup) {e : Ent} (he : e ∈ tree) :
    (tree.map (fun x => (x.name, x.target))).filter (fun k => k.1 ≠ e.name)
      = (tree.filter (fun x => x.target ≠ e.target)).map (fun x => (x.name, x.target)) := by
  rw [List.filter_map]
  congr 1
  apply List.filter_congr
  intro x hx
  simp only [Function.comp, ne_eq, decide_not, Bool.not_eq_eq_eq_not, Bool.not_not]
  by_cases h : x.name = e.name
  · have := name_unique hn hx he h
    subst this
    simp
  · have h' : x.target ≠ e.target := fun h2 => h (by rw [target_unique ht hx he h2])
    simp [h, h']

theorem del_ok {cfg : Cfg} {st : St} (hi : Inv cfg st) {f : Fam} {g : Nat} (hg : g ∈ st.list f) :
    ∃ st1, delTunnel g st = some st1 ∧ st1.slots = st.slots ∧ st1.ctr = st.ctr ∧
      (∀ f', st1.list f' = st.list f') ∧
      Inv cfg (st1.setList f ((st1.list f).erase g)) ∧
      (∀ e ∈ st1.tree, ∃ e0 ∈ st.tree, e0.target = e.target ∧ e0.name = e.name) := by
  obtain ⟨e0, he0, het0⟩ := hi.cov f g hg
  unfold delTunnel
  cases hfd : st.tree.find? (fun e => e.target == g) with
  | none => exact absurd het0 (find_target_none hfd e0 he0)
  | some e =>
    obtain ⟨he, het⟩ := find_target hfd
    obtain ⟨hus, hpos⟩ := hi.use e he
    simp only []
    rw [if_neg (by omega)]
    have hlen : ∀ f', ((st.setList f ((st.list f).erase g)).list f').length ≤ cfg.use := by
      intro f'
      by_cases hf : f' = f
      · subst hf; rw [list_setList, List.length_erase_of_mem hg]
        have := hi.len f'
        omega
      · rw [list_setList_other _ _ hf]; exact hi.len f'
    have hnd : ∀ f', ((st.setList f ((st.list f).erase g)).list f').Nodup := by
      intro f'
      by_cases hf : f' = f
      · subst hf; rw [list_setList]; exact (hi.nd f').erase g
      · rw [list_setList_other _ _ hf]; exact hi.nd f'
    have hmem : ∀ f' x, x ∈ (st.setList f ((st.list f).erase g)).list f' → x ∈ st.list f' := by
      intro f' x hx
      by_cases hf : f' = f
      · subst hf; rw [list_setList] at hx; exact List.mem_of_mem_erase hx
      · rw [list_setList_other _ _ hf] at hx; exact hx
    by_cases h1 : 0 < e.usage - 1
    · rw [if_pos h1]
      have htm : (st.tree.map fun x => if x.target = g then { x with usage := x.usage - 1 } else x).map
          (·.target) = st.tree.map (·.target) := by
        rw [List.map_map]; apply List.map_congr_left; intro x _
        simp only [Function.comp]; split <;> rfl
      have hnm : (st.tree.map fun x => if x.target = g then { x with usage := x.usage - 1 } else x).map
          (·.name) = st.tree.map (·.name) := by
        rw [List.map_map]; apply List.map_congr_left; intro x _
        simp only [Function.comp]; split <;> rfl
      refine ⟨_, rfl, rfl, rfl, fun f' => by cases f' <;> rfl, ?_, ?_⟩
      · have hkm : (st.tree.map fun x => if x.target = g then { x with usage := x.usage - 1 } else x).map
            (fun e => (e.name, e.target)) = st.tree.map (fun e => (e.name, e.target)) := by
          rw [List.map_map]; apply List.map_congr_left; intro x _
          simp only [Function.comp]; split <;> rfl
        have hbase : (∀ f', St.list { st with tree := st.tree.map fun x =>
            if x.target = g then { x with usage := x.usage - 1 } else x } f' = st.list f') := by
          intro f'; cases f' <;> rfl
        constructor
        · rw [setList_kern, setList_tree]; simp only []; rw [hkm]; exact hi.kern
        · rw [setList_tree]; simp only []; rw [htm]; exact hi.tnd
        · rw [setList_tree]; simp only []; rw [hnm]; exact hi.nnd
        · intro x hx
          rw [setList_tree] at hx
          simp only [List.mem_map] at hx
          obtain ⟨y, hy, rfl⟩ := hx
          obtain ⟨hyu, hyp⟩ := hi.use y hy
          have htot := total_erase st f g y.target hg
          have hconv : ∀ z, total (St.setList { st with tree := st.tree.map fun x =>
              if x.target = g then { x with usage := x.usage - 1 } else x } f
              ((St.list { st with tree := st.tree.map fun x =>
              if x.target = g then { x with usage := x.usage - 1 } else x } f).erase g)) z
              = total (st.setList f ((st.list f).erase g)) z := by
            intro z; cases f <;> rfl
          rw [hconv]
          by_cases hyg : y.target = g
          · have := target_unique hi.tnd hy he (by rw [hyg, het])
            subst this
            rw [if_pos hyg] at htot ⊢
            simp only []
            constructor
            · omega
            · omega
          · rw [if_neg hyg] at htot ⊢
            exact ⟨by omega, hyp⟩
        · intro f' x hx
          have hx' : x ∈ (st.setList f ((st.list f).erase g)).list f' := by
            cases f <;> cases f' <;> exact hx
          obtain ⟨z, hz, hzt⟩ := hi.cov f' x (hmem f' x hx')
          rw [setList_tree]
          have : x ∈ (st.tree.map fun x => if x.target = g then { x with usage := x.usage - 1 } else x).map
              (·.target) := by rw [htm, ← hzt]; exact List.mem_map_of_mem hz
          obtain ⟨w, hw, hwt⟩ := List.mem_map.1 this
          exact ⟨w, hw, hwt⟩
        · intro f'
          have := hnd f'
          cases f <;> cases f' <;> exact this
        · intro f'
          have := hlen f'
          cases f <;> cases f' <;> exact this
      · intro x hx
        simp only [List.mem_map] at hx
        obtain ⟨y, hy, rfl⟩ := hx
        exact ⟨y, hy, by split <;> rfl, by split <;> rfl⟩
    · rw [if_neg h1]
      have hu1 : e.usage = 1 := by omega
      refine ⟨_, rfl, rfl, rfl, fun f' => by cases f' <;> rfl, ?_, ?_⟩
      · have hconvt : ∀ z, total (St.setList { st with
            kern := st.kern.filter (fun k => k.1 ≠ e.name)
            tree := st.tree.filter (fun x => x.target ≠ g) } f
            ((St.list { st with
            kern := st.kern.filter (fun k => k.1 ≠ e.name)
            tree := st.tree.filter (fun x => x.target ≠ g) } f).erase g)) z
            = total (st.setList f ((st.list f).erase g)) z := by
          intro z; cases f <;> rfl
        constructor
        · rw [setList_kern, setList_tree]
          simp only []
          rw [hi.kern]
          have := filter_kern hi.tnd hi.nnd he
          rw [het] at this
          exact this
        · rw [setList_tree]; exact hi.tnd.sublist ((List.filter_sublist).map _)
        · rw [setList_tree]; exact hi.nnd.sublist ((List.filter_sublist).map _)
        · intro x hx
          rw [setList_tree] at hx
          simp only [List.mem_filter, decide_eq_true_eq] at hx
          obtain ⟨hxu, hxp⟩ := hi.use x hx.1
          have htot := total_erase st f g x.target hg
          rw [if_neg hx.2] at htot
          rw [hconvt]
          exact ⟨by omega, hxp⟩
        · intro f' x hx
          have hx' : x ∈ (st.setList f ((st.list f).erase g)).list f' := by
            cases f <;> cases f' <;> exact hx
          obtain ⟨z, hz, hzt⟩ := hi.cov f' x (hmem f' x hx')
          rw [setList_tree]
          refine ⟨z, ?_, hzt⟩
          simp only [List.mem_filter, decide_eq_true_eq]
          refine ⟨hz, ?_⟩
          intro hzg
          have hp : 0 < total (st.setList f ((st.list f).erase g)) g := by
            apply total_pos.2
            have hxg : x = g := by rw [← hzt, hzg]
            exact ⟨f', hxg ▸ hx'⟩
          have htot := total_erase st f g g hg
          rw [if_pos rfl] at htot
          rw [het] at hus
          omega
        · intro f'
          have := hnd f'
          cases f <;> cases f' <;> exact this
        · intro f'
          have := hlen f'
          cases f <;> cases f' <;> exact this
      · intro x hx
        simp only [List.mem_filter] at hx
        exact ⟨x, hx.1, rfl, rfl⟩

theorem setUnused_same (cfg : Cfg) (g : Nat) (st : St) :
    (setUnused cfg g st).kern = st.kern ∧ (setUnused cfg g st).tree = st.tree ∧
    (setUnused cfg g st).l4 = st.l4 ∧ (setUnused cfg g st).l6 = st.l6 ∧
    (setUnused cfg g st).ctr = st.ctr := by
  unfold setUnused
  split <;> simp

theorem getName_same (cfg : Cfg) (g : Nat) (st : St) :
    (getName cfg g st).1.kern = st.kern ∧ (getName cfg g st).1.tree = st.tree ∧
    (getName cfg g st).1.l4 = st.l4 ∧ (getName cfg g st).1.l6 = st.l6 := by
  unfold getName
  split
  · simp
  · split <;> simp

theorem remove_ok {cfg : Cfg} {st : St} (hi : Inv cfg st) {f : Fam} {g : Nat} (hg : g ∈ st.list f) :
    ∃ st1, removeFromList cfg f g st = some st1 ∧ Inv cfg st1 ∧
      st1.list f = (st.list f).erase g ∧ (∀ f', f' ≠ f → st1.list f' = st.list f') ∧
      st1.slots = (setUnused cfg g st).slots ∧ st1.ctr = st.ctr ∧
      (∀ e ∈ st1.tree, ∃ e0 ∈ st.tree, e0.target = e.target ∧ e0.name = e.name) := by
  obtain ⟨s1, h1, hs, hc, hl, hinv, htree⟩ := del_ok hi hg
  unfold removeFromList
  rw [h1]
  simp only []
  obtain ⟨k1, k2, k3, k4, k5⟩ := setUnused_same cfg g s1
  have hlist : ∀ f', (setUnused cfg g s1).list f' = s1.list f' := by
    intro f'; cases f' <;> simp [St.list, k3, k4]
  refine ⟨_, rfl, ?_, ?_, ?_, ?_, ?_, ?_⟩
  · refine hinv.of_eq ?_ ?_ ?_ ?_
    · rw [setList_kern, setList_kern]; exact k1
    · rw [setList_tree, setList_tree]; exact k2
    · cases f <;> simp [St.setList, St.list, k3]
    · cases f <;> simp [St.setList, St.list, k4]
  · rw [list_setList, hlist, hl]
  · intro f' hf
    rw [list_setList_other _ _ hf, hlist, hl]
  · rw [setList_slots]
    unfold setUnused
    rw [hs]
    split <;> simp [hs]
  · rw [setList_ctr, k5, hc]
  · intro e he
    rw [setList_tree, k2] at he
    exact htree e he

theorem add_ok {cfg : Cfg} {st : St} (hi : Inv cfg st) {f : Fam} {g : Nat} (hg : g ∉ st.list f)
    (hroom : (st.list f).length < cfg.use) (ok up : Bool) (name : Name) :
    ((addTunnel ok up g name st).2 = false → (addTunnel ok up g name st).1 = st) ∧
    ((addTunnel ok up g name st).2 = true →
      Inv cfg ((addTunnel ok up g name st).1.setList f
        (g :: (addTunnel ok up g name st).1.list f)) ∧
      (addTunnel ok up g name st).1.slots = st.slots ∧
      (addTunnel ok up g name st).1.ctr = st.ctr ∧
      (∀ f', (addTunnel ok up g name st).1.list f' = st.list f') ∧
      ∀ e ∈ (addTunnel ok up g name st).1.tree,
        (e.target = g ∧ e.name = name ∧ ∀ e0 ∈ st.tree, e0.target ≠ g) ∨
        ∃ e0 ∈ st.tree, e0.target = e.target ∧ e0.name = e.name) := by
  unfold addTunnel
  have hlen : ∀ (s : St), (∀ f', s.list f' = st.list f') → ∀ f',
      ((s.setList f (g :: s.list f)).list f').length ≤ cfg.use := by
    intro s hs f'
    by_cases hf : f' = f
    · subst hf; rw [list_setList, hs, List.length_cons]; omega
    · rw [list_setList_other _ _ hf, hs]; exact hi.len f'
  have hnd : ∀ (s : St), (∀ f', s.list f' = st.list f') → ∀ f',
      ((s.setList f (g :: s.list f)).list f').Nodup := by
    intro s hs f'
    by_cases hf : f' = f
    · subst hf; rw [list_setList, hs, List.nodup_cons]; exact ⟨hg, hi.nd f'⟩
    · rw [list_setList_other _ _ hf, hs]; exact hi.nd f'
  have hmem : ∀ (s : St), (∀ f', s.list f' = st.list f') → ∀ f' x,
      x ∈ (s.setList f (g :: s.list f)).list f' → x = g ∨ x ∈ st.list f' := by
    intro s hs f' x hx
    by_cases hf : f' = f
    · subst hf; rw [list_setList, hs] at hx; exact List.mem_cons.1 hx
    · rw [list_setList_other _ _ hf, hs] at hx; exact Or.inr hx
  have htotal : ∀ (s : St), s.l4 = st.l4 → s.l6 = st.l6 → ∀ x,
      total (s.setList f (g :: s.list f)) x = total st x + if x = g then 1 else 0 := by
    intro s h4 h6 x
    rw [total_cons]
    congr 1
    simp [total, h4, h6]
  cases hfd : st.tree.find? (fun e => e.target == g) with
  | some e =>
    obtain ⟨he, het⟩ := find_target hfd
    refine ⟨fun h => (by cases h), fun _ => ?_⟩
    simp only []
    have htm : (st.tree.map fun e => if e.target = g then { e with usage := e.usage + 1 } else e).map
        (·.target) = st.tree.map (·.target) := by
      rw [List.map_map]; apply List.map_congr_left; intro x _
      simp only [Function.comp]; split <;> rfl
    have hnm : (st.tree.map fun e => if e.target = g then { e with usage := e.usage + 1 } else e).map
        (·.name) = st.tree.map (·.name) := by
      rw [List.map_map]; apply List.map_congr_left; intro x _
      simp only [Function.comp]; split <;> rfl
    have hkm : (st.tree.map fun e => if e.target = g then { e with usage := e.usage + 1 } else e).map
        (fun e => (e.name, e.target)) = st.tree.map (fun e => (e.name, e.target)) := by
      rw [List.map_map]; apply List.map_congr_left; intro x _
      simp only [Function.comp]; split <;> rfl
    refine ⟨?_, trivial, trivial, ?_, ?_⟩
    · constructor
      · rw [setList_kern, setList_tree]; simp only []; rw [hkm]; exact hi.kern
      · rw [setList_tree]; simp only []; rw [htm]; exact hi.tnd
      · rw [setList_tree]; simp only []; rw [hnm]; exact hi.nnd
      · intro x hx
        rw [setList_tree] at hx
        simp only [List.mem_map] at hx
        obtain ⟨y, hy, rfl⟩ := hx
        obtain ⟨hyu, hyp⟩ := hi.use y hy
        rw [htotal]
        · by_cases hyg : y.target = g
          · rw [if_pos hyg]
            simp only []
            rw [if_pos hyg]
            exact ⟨by omega, by omega⟩
          · rw [if_neg hyg, if_neg hyg]
            exact ⟨by omega, hyp⟩
        · rfl
        · rfl
      · intro f' x hx
        rw [setList_tree]
        have hxt : x ∈ st.tree.map (·.target) := by
          rcases hmem _ (fun f' => by cases f' <;> rfl) f' x hx with h | h
          · rw [h, ← het]; exact List.mem_map_of_mem he
          · obtain ⟨z, hz, hzt⟩ := hi.cov f' x h
            rw [← hzt]; exact List.mem_map_of_mem hz
        rw [← htm] at hxt
        obtain ⟨w, hw, hwt⟩ := List.mem_map.1 hxt
        exact ⟨w, hw, hwt⟩
      · exact hnd _ (fun f' => by cases f' <;> rfl)
      · exact hlen _ (fun f' => by cases f' <;> rfl)
    · intro f'; cases f' <;> rfl
    · intro x hx
      simp only [List.mem_map] at hx
      obtain ⟨y, hy, rfl⟩ := hx
      exact Or.inr ⟨y, hy, by split <;> rfl, by split <;> rfl⟩
  | none =>
    have hno := find_target_none hfd
    simp only []
    by_cases hok : (ok && up && !(st.kern.any fun k => k.1 == name)) = true
    · rw [if_pos hok]
      refine ⟨fun h => (by cases h), fun _ => ?_⟩
      simp only []
      have hnk : ∀ e ∈ st.tree, e.name ≠ name := by
        intro e he hn
        simp only [Bool.and_eq_true, Bool.not_eq_true', List.any_eq_false] at hok
        have := hok.2 (e.name, e.target) (by rw [hi.kern]; exact List.mem_map_of_mem he)
        simp [hn] at this
      have ht0 : total st g = 0 := by
        by_cases h : total st g = 0
        · exact h
        · obtain ⟨f', hf'⟩ := total_pos.1 (show 0 < total st g by omega)
          obtain ⟨e, he, het⟩ := hi.cov f' g hf'
          exact absurd het (hno e he)
      refine ⟨?_, trivial, trivial, ?_, ?_⟩
      · constructor
        · rw [setList_kern, setList_tree]; simp only [List.map_cons]; rw [hi.kern]
        · rw [setList_tree]
          simp only [List.map_cons, List.nodup_cons]
          refine ⟨?_, hi.tnd⟩
          intro h
          obtain ⟨z, hz, hzt⟩ := List.mem_map.1 h
          exact hno z hz hzt
        · rw [setList_tree]
          simp only [List.map_cons, List.nodup_cons]
          refine ⟨?_, hi.nnd⟩
          intro h
          obtain ⟨z, hz, hzt⟩ := List.mem_map.1 h
          exact hnk z hz hzt
        · intro x hx
          rw [setList_tree] at hx
          rw [htotal]
          · rcases List.mem_cons.1 hx with rfl | hx
            · simp only [if_true]
              exact ⟨by omega, by omega⟩
            · rw [if_neg (hno x hx)]
              obtain ⟨a, b⟩ := hi.use x hx
              exact ⟨by omega, b⟩
          · rfl
          · rfl
        · intro f' x hx
          rw [setList_tree]
          rcases hmem _ (fun f' => by cases f' <;> rfl) f' x hx with h | h
          · exact ⟨_, List.mem_cons_self, h.symm⟩
          · obtain ⟨z, hz, hzt⟩ := hi.cov f' x h
            exact ⟨z, List.mem_cons_of_mem _ hz, hzt⟩
        · exact hnd _ (fun f' => by cases f' <;> rfl)
        · exact hlen _ (fun f' => by cases f' <;> rfl)
      · intro f'; cases f' <;> rfl
      · intro x hx
        rcases List.mem_cons.1 hx with rfl | hx
        · exact Or.inl ⟨rfl, rfl, hno⟩
        · exact Or.inr ⟨x, hx, rfl, rfl⟩
    · rw [if_neg hok]
      exact ⟨fun _ => rfl, fun h => (by cases h)⟩

theorem enter_inv {cfg : Cfg} {st : St} (hi : Inv cfg st) {f : Fam} {g : Nat} (hg : g ∉ st.list f)
    (hroom : (st.list f).length < cfg.use) (ok up : Bool) : Inv cfg (enter cfg f g ok up st) := by
  obtain ⟨k1, k2, k3, k4⟩ := getName_same cfg g st
  have hi1 : Inv cfg (getName cfg g st).1 := hi.of_eq k1 k2 k3 k4
  have hl : ∀ f', (getName cfg g st).1.list f' = st.list f' := by
    intro f'; cases f' <;> simp [St.list, k3, k4]
  obtain ⟨h1, h2⟩ := add_ok hi1 (f := f) (g := g) (by rw [hl]; exact hg) (by rw [hl]; exact hroom)
    ok up (getName cfg g st).2
  unfold enter
  simp only []
  by_cases hb : (addTunnel ok up g (getName cfg g st).2 (getName cfg g st).1).2 = true
  · rw [if_pos hb]
    exact (h2 hb).1
  · rw [if_neg hb]
    rw [h1 (by simpa using hb)]
    obtain ⟨a, b, c, d, _⟩ := setUnused_same cfg g (getName cfg g st).1
    exact hi1.of_eq a b c d

theorem activate_ok {cfg : Cfg} {st : St} (huse : 0 < cfg.use) (hi : Inv cfg st) (f : Fam) (g : Nat)
    (ok up : Bool) (k : Nat) : ∃ st1, activate cfg f g ok up k st = some st1 ∧ Inv cfg st1 := by
  unfold activate
  by_cases hg : g ∈ st.list f
  · rw [if_pos hg]; exact ⟨st, rfl, hi⟩
  · rw [if_neg hg]
    by_cases hfull : cfg.use ≤ (st.list f).length
    · rw [if_pos hfull]
      have hlt : k % (st.list f).length < (st.list f).length := Nat.mod_lt _ (by omega)
      rw [List.getElem?_eq_getElem hlt]
      simp only []
      obtain ⟨s1, h1, h2, h3, _⟩ := remove_ok hi (f := f) (List.getElem_mem hlt)
      rw [h1]
      refine ⟨_, rfl, enter_inv h2 ?_ ?_ ok up⟩
      · rw [h3]; exact fun h => hg (List.mem_of_mem_erase h)
      · rw [h3, List.length_erase_of_mem (List.getElem_mem hlt)]
        have := hi.len f
        omega
    · rw [if_neg hfull]
      exact ⟨_, rfl, enter_inv hi hg (by omega) ok up⟩

theorem step_inv {cfg : Cfg} {st : St} (huse : 0 < cfg.use) (hi : Inv cfg st) (op : Op) :
    ∃ st1, step cfg st op = some st1 ∧ Inv cfg st1 := by
  cases op with
  | choose f g ok up k => exact activate_ok huse hi f g ok up k
  | drop f g =>
    unfold step
    simp only []
    by_cases hg : g ∈ st.list f
    · rw [if_pos hg]
      obtain ⟨s1, h1, h2, _⟩ := remove_ok hi hg
      exact ⟨s1, h1, h2⟩
    · rw [if_neg hg]; exact ⟨st, rfl, hi⟩

theorem run_inv {cfg : Cfg} (huse : 0 < cfg.use) : ∀ (ops : List Op) {st : St}, Inv cfg st →
    ∃ st1, run cfg st ops = some st1 ∧ Inv cfg st1
  | [], st, hi => ⟨st, rfl, hi⟩
  | op :: l, st, hi => by
    obtain ⟨s1, h1, h2⟩ := step_inv huse hi op
    obtain ⟨s2, h3, h4⟩ := run_inv huse l h2
    refine ⟨s2, ?_, h4⟩
    unfold run
    rw [h1]
    exact h3

/-! ### The interface names with one family -/

theorem filterMap_set_some : ∀ {slots : List (Option Nat)} {i : Nat} {g : Nat},
    slots[i]? = some none →
    ((slots.set i (some g)).filterMap id).Perm (g :: slots.filterMap id)
  | [], i, g, h => by simp at h
  | x :: xs, 0, g, h => by
    simp only [List.getElem?_cons_zero, Option.some.injEq] at h
    subst h
    simp
  | none :: xs, i + 1, g, h => by
    simp only [List.getElem?_cons_succ] at h
    simpa using filterMap_set_some h
  | some y :: xs, i + 1, g, h => by
    simp only [List.getElem?_cons_succ] at h
    have := (filterMap_set_some (g := g) h).cons y
    simp only [List.set_cons_succ, List.filterMap_cons, id]
    exact this.trans (List.Perm.swap _ _ _)

theorem filterMap_set_none : ∀ {slots : List (Option Nat)} {i : Nat} {g : Nat},
    slots[i]? = some (some g) →
    (g :: (slots.set i none).filterMap id).Perm (slots.filterMap id)
  | [], i, g, h => by simp at h
  | x :: xs, 0, g, h => by
    simp only [List.getElem?_cons_zero, Option.some.injEq] at h
    subst h
    simp
  | none :: xs, i + 1, g, h => by
    simp only [List.getElem?_cons_succ] at h
    simpa using filterMap_set_none h
  | some y :: xs, i + 1, g, h => by
    simp only [List.getElem?_cons_succ] at h
    have := (filterMap_set_none h).cons y
    simp only [List.set_cons_succ, List.filterMap_cons, id]
    exact (List.Perm.swap _ _ _).trans this

theorem mem_filterMap_iff {slots : List (Option Nat)} {g : Nat} :
    g ∈ slots.filterMap id ↔ ∃ i : Nat, slots[i]? = some (some g) := by
  simp only [List.mem_filterMap, id]
  constructor
  · rintro ⟨a, ha, rfl⟩
    obtain ⟨i, hi⟩ := List.mem_iff_getElem?.1 ha
    exact ⟨i, hi⟩
  · rintro ⟨i, hi⟩
    exact ⟨some g, List.mem_of_getElem? hi, rfl⟩

theorem slot_unique : ∀ {slots : List (Option Nat)}, (slots.filterMap id).Nodup →
    ∀ {i j : Nat} {g : Nat}, slots[i]? = some (some g) → slots[j]? = some (some g) → i = j
  | [], _, i, j, g, h, _ => by simp at h
  | x :: xs, hn, 0, 0, g, _, _ => rfl
  | x :: xs, hn, 0, j + 1, g, h1, h2 => by
    exfalso
    simp only [List.getElem?_cons_zero, Option.some.injEq] at h1
    subst h1
    simp only [List.filterMap_cons, id, List.nodup_cons] at hn
    exact hn.1 (mem_filterMap_iff.2 ⟨j, by simpa using h2⟩)
  | x :: xs, hn, i + 1, 0, g, h1, h2 => by
    exfalso
    simp only [List.getElem?_cons_zero, Option.some.injEq] at h2
    subst h2
    simp only [List.filterMap_cons, id, List.nodup_cons] at hn
    exact hn.1 (mem_filterMap_iff.2 ⟨i, by simpa using h1⟩)
  | x :: xs, hn, i + 1, j + 1, g, h1, h2 => by
    have hn' : (xs.filterMap id).Nodup := by
      cases x with
      | none => simpa using hn
      | some y => simp only [List.filterMap_cons, id, List.nodup_cons] at hn; exact hn.2
    have := slot_unique (i := i) (j := j) (g := g) hn' (by simpa using h1) (by simpa using h2)
    omega

theorem all_used_length : ∀ {slots : List (Option Nat)}, (∀ s ∈ slots, s ≠ none) →
    (slots.filterMap id).length = slots.length
  | [], _ => rfl
  | none :: xs, h => absurd rfl (h none List.mem_cons_self)
  | some y :: xs, h => by
    simp only [List.filterMap_cons, id, List.length_cons]
    rw [all_used_length (fun s hs => h s (List.mem_cons_of_mem _ hs))]

/-- The invariant of the interface names, when only the list of the family `f` is used and there is
more than one name. -/
structure SInv (cfg : Cfg) (f : Fam) (st : St) : Prop where
  inv : Inv cfg st
  other : ∀ f', f' ≠ f → st.list f' = []
  slen : st.slots.length = cfg.use
  perm : (st.slots.filterMap id).Perm (st.list f)
  name : ∀ e ∈ st.tree, ∀ i, st.slots[i]? = some (some e.target) → e.name = .slot i

theorem findSlot_some {cfg : Cfg} {slots : List (Option Nat)} {g : Option Nat} {i : Nat}
    (h : findSlot cfg slots g = some i) : slots[i]? = some g := by
  unfold findSlot at h
  by_cases hm : multi cfg = true
  · rw [if_pos hm] at h
    rw [List.findIdx?_eq_some_iff_getElem] at h
    obtain ⟨hlt, hx, _⟩ := h
    rw [List.getElem?_eq_getElem hlt]
    simpa using hx
  · rw [if_neg hm] at h; cases h

theorem findSlot_none {cfg : Cfg} {slots : List (Option Nat)} {g : Option Nat}
    (hm : multi cfg = true) (h : findSlot cfg slots g = none) : g ∉ slots := by
  unfold findSlot at h
  rw [if_pos hm, List.findIdx?_eq_none_iff] at h
  intro hg
  have := h g hg
  simp at this

theorem tree_list {cfg : Cfg} {st : St} (hi : Inv cfg st) {f : Fam}
    (ho : ∀ f', f' ≠ f → st.list f' = []) {e : Ent} (he : e ∈ st.tree) : e.target ∈ st.list f := by
  obtain ⟨hu, hp⟩ := hi.use e he
  obtain ⟨f', hf'⟩ := total_pos.1 (show 0 < total st e.target by omega)
  by_cases h : f' = f
  · rw [← h]; exact hf'
  · rw [ho f' h] at hf'; cases hf'

theorem sinv_start (cfg : Cfg) (f : Fam) : SInv cfg f (start cfg) := by
  refine ⟨inv_start cfg, ?_, ?_, ?_, ?_⟩
  · intro f' _; cases f' <;> rfl
  · simp [start]
  · have : (start cfg).slots.filterMap id = [] := by
      simp only [start, List.filterMap_eq_nil_iff]
      intro a ha
      rw [List.eq_of_mem_replicate ha]; rfl
    rw [this]
    cases f <;> exact List.Perm.refl _
  · intro e he; cases he

theorem sinv_remove {cfg : Cfg} {f : Fam} {st : St} (hm : multi cfg = true) (hs : SInv cfg f st)
    {g : Nat} (hg : g ∈ st.list f) :
    ∃ st1, removeFromList cfg f g st = some st1 ∧ SInv cfg f st1 ∧
      st1.list f = (st.list f).erase g := by
  obtain ⟨st1, h1, h2, h3, h4, h5, _, h7⟩ := remove_ok hs.inv hg
  refine ⟨st1, h1, ?_, h3⟩
  -- the slot of the gateway
  have hgs : g ∈ st.slots.filterMap id := hs.perm.mem_iff.2 hg
  obtain ⟨i, hi⟩ := mem_filterMap_iff.1 hgs
  have hnd : (st.slots.filterMap id).Nodup := (hs.perm.nodup_iff).2 (hs.inv.nd f)
  have hfs : findSlot cfg st.slots (some g) = some i := by
    cases hf : findSlot cfg st.slots (some g) with
    | none => exact absurd (List.mem_of_getElem? hi) (findSlot_none hm hf)
    | some j => rw [slot_unique hnd (findSlot_some hf) hi]
  have h5' : st1.slots = st.slots.set i none := by
    rw [h5]; unfold setUnused; rw [hfs]
  refine ⟨h2, ?_, ?_, ?_, ?_⟩
  · intro f' hf'; rw [h4 f' hf']; exact hs.other f' hf'
  · rw [h5', List.length_set]; exact hs.slen
  · rw [h5', h3]
    have hp := (filterMap_set_none hi).trans hs.perm
    have := hp.erase g
    rwa [List.erase_cons_head] at this
  · intro e he j hj
    obtain ⟨e0, he0, het, hen⟩ := h7 e he
    rw [h5', List.getElem?_set] at hj
    by_cases hij : i = j
    · rw [if_pos hij] at hj
      split at hj <;> cases hj
    · rw [if_neg hij] at hj
      rw [← hen]
      exact hs.name e0 he0 j (by rw [het]; exact hj)

theorem sinv_enter {cfg : Cfg} {f : Fam} {st : St} (hm : multi cfg = true) (hs : SInv cfg f st)
    {g : Nat} (hg : g ∉ st.list f) (hroom : (st.list f).length < cfg.use) (ok up : Bool) :
    SInv cfg f (enter cfg f g ok up st) ∧
    (ok = true → up = true → g ∈ (enter cfg f g ok up st).list f) := by
  have hinv := enter_inv hs.inv hg hroom ok up
  -- there is a free slot
  have hfree : ∃ i, findSlot cfg st.slots none = some i := by
    cases hf : findSlot cfg st.slots none with
    | some i => exact ⟨i, rfl⟩
    | none =>
      exfalso
      have hn := findSlot_none hm hf
      have := all_used_length (slots := st.slots) (fun s hs h => hn (h ▸ hs))
      rw [hs.perm.length_eq, hs.slen] at this
      omega
  obtain ⟨i, hi⟩ := hfree
  have hi' := findSlot_some hi
  have hilt : i < st.slots.length := by
    rw [List.getElem?_eq_some_iff] at hi'; exact hi'.1
  have hgn : getName cfg g st = ({ st with slots := st.slots.set i (some g) }, .slot i) := by
    unfold getName; rw [hi]
  have hg4 : g ∉ st.slots.filterMap id := fun h => hg (hs.perm.mem_iff.1 h)
  -- the tree has no entry of the gateway, nor one with the name of the slot
  have hnot : ∀ e ∈ st.tree, e.target ≠ g := by
    intro e he h
    exact hg (h ▸ tree_list hs.inv hs.other he)
  have hname : ∀ e ∈ st.tree, e.name ≠ .slot i := by
    intro e he h
    have hel := tree_list hs.inv hs.other he
    obtain ⟨j, hj⟩ := mem_filterMap_iff.1 (hs.perm.mem_iff.2 hel)
    have := hs.name e he j hj
    rw [h] at this
    injection this with this
    subst this
    rw [hi'] at hj
    cases hj
  have hfd : st.tree.find? (fun e => e.target == g) = none := by
    rw [List.find?_eq_none]
    intro e he
    simpa using hnot e he
  have hkany : (st.kern.any fun k => k.1 == Name.slot i) = false := by
    rw [List.any_eq_false]
    intro k hk
    rw [hs.inv.kern] at hk
    obtain ⟨e, he, rfl⟩ := List.mem_map.1 hk
    simpa using hname e he
  have hset : (setUnused cfg g { st with slots := st.slots.set i (some g) }).slots = st.slots := by
    have hnd : ((st.slots.set i (some g)).filterMap id).Nodup := by
      rw [(filterMap_set_some hi').nodup_iff, List.nodup_cons]
      exact ⟨hg4, hs.perm.nodup_iff.2 (hs.inv.nd f)⟩
    have hii : (st.slots.set i (some g))[i]? = some (some g) := by
      rw [List.getElem?_set_self hilt]
    have hfs : findSlot cfg (st.slots.set i (some g)) (some g) = some i := by
      cases hf : findSlot cfg (st.slots.set i (some g)) (some g) with
      | none => exact absurd (List.mem_of_getElem? hii) (findSlot_none hm hf)
      | some j => rw [slot_unique hnd (findSlot_some hf) hii]
    unfold setUnused
    simp only []
    rw [hfs]
    simp only [List.set_set]
    apply List.ext_getElem?
    intro j
    rw [List.getElem?_set]
    by_cases hij : i = j
    · subst hij; rw [if_pos rfl, if_pos hilt, hi']
    · rw [if_neg hij]
  unfold enter at hinv ⊢
  simp only [] at hinv ⊢
  rw [hgn] at hinv ⊢
  unfold addTunnel at hinv ⊢
  simp only [] at hinv ⊢
  rw [hfd] at hinv ⊢
  simp only [] at hinv ⊢
  rw [hkany] at hinv ⊢
  by_cases hok : (ok && up && !false) = true
  · rw [if_pos hok] at hinv ⊢
    simp only [if_true] at hinv ⊢
    have hls : ∀ f', St.list { st with
        slots := st.slots.set i (some g)
        kern := (Name.slot i, g) :: st.kern
        tree := ⟨g, .slot i, 1⟩ :: st.tree } f' = st.list f' := by
      intro f'; cases f' <;> rfl
    refine ⟨⟨hinv, ?_, ?_, ?_, ?_⟩, fun _ _ => ?_⟩
    · intro f' hf'
      rw [list_setList_other _ _ hf', hls]
      exact hs.other f' hf'
    · rw [setList_slots]; simp only [List.length_set]; exact hs.slen
    · rw [setList_slots, list_setList, hls]
      simp only []
      exact (filterMap_set_some hi').trans (hs.perm.cons g)
    · intro e he j hj
      rw [setList_tree] at he
      rw [setList_slots] at hj
      simp only [] at hj
      rw [List.getElem?_set] at hj
      rcases List.mem_cons.1 he with rfl | he
      · simp only [] at hj ⊢
        by_cases hij : i = j
        · rw [hij]
        · rw [if_neg hij] at hj
          exact absurd (mem_filterMap_iff.2 ⟨j, hj⟩) hg4
      · by_cases hij : i = j
        · rw [if_pos hij, if_pos hilt] at hj
          injection hj with hj
          injection hj with hj
          exact absurd hj.symm (hnot e he)
        · rw [if_neg hij] at hj
          exact hs.name e he j hj
    · rw [list_setList]; exact List.mem_cons_self
  · rw [if_neg hok] at hinv ⊢
    simp only [Bool.false_eq_true, if_false] at hinv ⊢
    obtain ⟨a, b, c, d, _⟩ := setUnused_same cfg g { st with slots := st.slots.set i (some g) }
    have hls : ∀ f', (setUnused cfg g { st with slots := st.slots.set i (some g) }).list f'
        = st.list f' := by
      intro f'; cases f' <;> simp [St.list, c, d]
    refine ⟨⟨hinv, ?_, ?_, ?_, ?_⟩, fun h1 h2 => ?_⟩
    · intro f' hf'; rw [hls]; exact hs.other f' hf'
    · rw [hset]; exact hs.slen
    · rw [hset, hls]; exact hs.perm
    · intro e he j hj
      rw [b] at he
      rw [hset] at hj
      exact hs.name e he j hj
    · rw [h1, h2] at hok; exact absurd rfl hok

/-- The family of an event. -/
def famOf : Op → Fam
  | .choose f _ _ _ _ => f
  | .drop f _ => f

theorem sinv_choose {cfg : Cfg} {f : Fam} {st : St} (hm : multi cfg = true) (hs : SInv cfg f st)
    (g : Nat) (ok up : Bool) (k : Nat) :
    ∃ st1, activate cfg f g ok up k st = some st1 ∧ SInv cfg f st1 ∧
      (ok = true → up = true → g ∈ st1.list f) := by
  have huse : 1 < cfg.use := by simpa [multi] using hm
  unfold activate
  by_cases hg : g ∈ st.list f
  · rw [if_pos hg]; exact ⟨st, rfl, hs, fun _ _ => hg⟩
  · rw [if_neg hg]
    by_cases hfull : cfg.use ≤ (st.list f).length
    · rw [if_pos hfull]
      have hlt : k % (st.list f).length < (st.list f).length := Nat.mod_lt _ (by omega)
      rw [List.getElem?_eq_getElem hlt]
      simp only []
      obtain ⟨s1, h1, h2, h3⟩ := sinv_remove hm hs (List.getElem_mem hlt)
      rw [h1]
      have hr := sinv_enter hm h2 (g := g)
        (by rw [h3]; exact fun h => hg (List.mem_of_mem_erase h))
        (by
          rw [h3, List.length_erase_of_mem (List.getElem_mem hlt)]
          have := hs.inv.len f
          omega) ok up
      exact ⟨_, rfl, hr⟩
    · rw [if_neg hfull]
      exact ⟨_, rfl, sinv_enter hm hs hg (by omega) ok up⟩

theorem sinv_step {cfg : Cfg} {f : Fam} {st : St} (hm : multi cfg = true) (hs : SInv cfg f st)
    {op : Op} (hf : famOf op = f) : ∃ st1, step cfg st op = some st1 ∧ SInv cfg f st1 := by
  cases op with
  | choose f' g ok up k =>
    simp only [famOf] at hf
    subst hf
    obtain ⟨s1, h1, h2, _⟩ := sinv_choose hm hs g ok up k
    exact ⟨s1, h1, h2⟩
  | drop f' g =>
    simp only [famOf] at hf
    subst hf
    unfold step
    simp only []
    by_cases hg : g ∈ st.list f'
    · rw [if_pos hg]
      obtain ⟨s1, h1, h2, _⟩ := sinv_remove hm hs hg
      exact ⟨s1, h1, h2⟩
    · rw [if_neg hg]; exact ⟨st, rfl, hs⟩

theorem sinv_run {cfg : Cfg} {f : Fam} (hm : multi cfg = true) : ∀ (ops : List Op) {st : St},
    SInv cfg f st → (∀ op ∈ ops, famOf op = f) →
    ∃ st1, run cfg st ops = some st1 ∧ SInv cfg f st1
  | [], st, hi, _ => ⟨st, rfl, hi⟩
  | op :: l, st, hi, hf => by
    obtain ⟨s1, h1, h2⟩ := sinv_step hm hi (hf op List.mem_cons_self)
    obtain ⟨s2, h3, h4⟩ := sinv_run hm l h2 (fun o ho => hf o (List.mem_cons_of_mem _ ho))
    refine ⟨s2, ?_, h4⟩
    unfold run
    rw [h1]
    exact h3

end Verif.Tunnel
