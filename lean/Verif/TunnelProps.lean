import Verif.TunnelLemmas

/-
Properties C103 and C104: the tunnels to the gateways and their interface names.
-/

namespace Verif.Tunnel

/-- A gateway is in use for a family. -/
def Active (st : St) (g : Nat) : Prop := g ∈ st.l4 ∨ g ∈ st.l6

private theorem active_iff {st : St} {g : Nat} : Active st g ↔ ∃ f, g ∈ st.list f := by
  constructor
  · rintro (h | h)
    · exact ⟨.v4, h⟩
    · exact ⟨.v6, h⟩
  · rintro ⟨f, h⟩
    cases f
    · exact Or.inl h
    · exact Or.inr h

/-! ### C103: a tunnel exists exactly as long as it is used -/

/-- **C103.** Whatever gateways are chosen and dropped for the two families, and whichever calls the
kernel refuses, the tunnels in the kernel are exactly those to the gateways in use, one for each,
all with different names; and the usage count of a tunnel is the number of families that use it. -/
theorem C103_tunnels_in_use (cfg : Cfg) (huse : 0 < cfg.use) (ops : List Op) :
    ∃ st, run cfg (start cfg) ops = some st ∧
      (∀ g, (∃ name, (name, g) ∈ st.kern) ↔ Active st g) ∧
      (st.kern.map (·.2)).Nodup ∧ (st.kern.map (·.1)).Nodup ∧
      (∀ e ∈ st.tree, (e.name, e.target) ∈ st.kern ∧
        e.usage = (if e.target ∈ st.l4 then 1 else 0) + if e.target ∈ st.l6 then 1 else 0) := by
  obtain ⟨st, h1, hi⟩ := run_inv huse ops (inv_start cfg)
  refine ⟨st, h1, ?_, ?_, ?_, ?_⟩
  · intro g
    rw [active_iff]
    constructor
    · rintro ⟨name, h⟩
      rw [hi.kern] at h
      obtain ⟨e, he, hx⟩ := List.mem_map.1 h
      injection hx with _ hg
      rw [← hg]
      obtain ⟨hu, hp⟩ := hi.use e he
      exact total_pos.1 (by omega)
    · rintro ⟨f, hf⟩
      obtain ⟨e, he, het⟩ := hi.cov f g hf
      refine ⟨e.name, ?_⟩
      rw [hi.kern, ← het]
      exact List.mem_map_of_mem (f := fun e : Ent => (e.name, e.target)) he
  · rw [hi.kern, List.map_map]; exact hi.tnd
  · rw [hi.kern, List.map_map]; exact hi.nnd
  · intro e he
    refine ⟨by rw [hi.kern]; exact List.mem_map_of_mem (f := fun e : Ent => (e.name, e.target)) he, ?_⟩
    rw [(hi.use e he).1]
    unfold total
    have h4 : st.l4.Nodup := hi.nd .v4
    have h6 : st.l6.Nodup := hi.nd .v6
    rw [h4.count, h6.count]

/-- **C103.** When no gateway is in use any more, no tunnel is left. -/
theorem C103_none_left (cfg : Cfg) (huse : 0 < cfg.use) (ops : List Op) (st : St)
    (h : run cfg (start cfg) ops = some st) (h4 : st.l4 = []) (h6 : st.l6 = []) :
    st.kern = [] ∧ st.tree = [] := by
  obtain ⟨st1, h1, hi⟩ := run_inv huse ops (inv_start cfg)
  rw [h] at h1
  injection h1 with h1
  subst h1
  have ht : st.tree = [] := by
    rw [List.eq_nil_iff_forall_not_mem]
    intro e he
    obtain ⟨hu, hp⟩ := hi.use e he
    unfold total at hu
    rw [h4, h6] at hu
    simp at hu
    omega
  exact ⟨by rw [hi.kern, ht]; rfl, ht⟩

private theorem enter_refused {cfg : Cfg} {st : St} {f : Fam} {g : Nat} {ok up : Bool}
    (hr : (ok && up) = false) (hno : ∀ e ∈ st.tree, e.target ≠ g) :
    (enter cfg f g ok up st).kern = st.kern ∧ (enter cfg f g ok up st).l4 = st.l4 ∧
    (enter cfg f g ok up st).l6 = st.l6 := by
  obtain ⟨k1, k2, k3, k4⟩ := getName_same cfg g st
  have hfd : (getName cfg g st).1.tree.find? (fun e => e.target == g) = none := by
    rw [k2, List.find?_eq_none]
    intro e he
    simpa using hno e he
  have ha : addTunnel ok up g (getName cfg g st).2 (getName cfg g st).1
      = ((getName cfg g st).1, false) := by
    unfold addTunnel
    rw [hfd]
    simp only []
    rw [hr, Bool.false_and, if_neg (by simp)]
  obtain ⟨a, b, c, d, _⟩ := setUnused_same cfg g (getName cfg g st).1
  unfold enter
  simp only []
  rw [ha]
  simp only [Bool.false_eq_true, if_false]
  exact ⟨a.trans k1, c.trans k3, d.trans k4⟩

/-- **C103.** A gateway for which the kernel refuses to create the tunnel or to set it up does not come
into use, and no tunnel to it is left. -/
theorem C103_refusal (cfg : Cfg) (huse : 0 < cfg.use) (ops : List Op) (st st1 : St)
    (h : run cfg (start cfg) ops = some st) (f : Fam) (g k : Nat) (ok up : Bool)
    (hn : ¬ Active st g) (hr : (ok && up) = false)
    (hs : step cfg st (.choose f g ok up k) = some st1) :
    ¬ Active st1 g ∧ ∀ name, (name, g) ∉ st1.kern := by
  have hrun : run cfg (start cfg) (ops ++ [.choose f g ok up k]) = some st1 := by
    have : ∀ (l : List Op) (s : St), run cfg s (l ++ [.choose f g ok up k])
        = (run cfg s l).bind fun s1 => step cfg s1 (.choose f g ok up k) := by
      intro l
      induction l with
      | nil => intro s; simp [run]
      | cons o l ih =>
        intro s
        simp only [List.cons_append, run]
        cases step cfg s o with
        | none => rfl
        | some s1 => simp only [Option.bind_some]; exact ih s1
    rw [this, h]
    exact hs
  obtain ⟨st0, h0, hi⟩ := run_inv huse ops (inv_start cfg)
  rw [h] at h0
  injection h0 with h0
  subst h0
  have hnl : ∀ f', g ∉ st.list f' := fun f' hf' => hn (active_iff.2 ⟨f', hf'⟩)
  have hne : ∀ s : St, Inv cfg s → (∀ f', g ∉ s.list f') → ∀ e ∈ s.tree, e.target ≠ g := by
    intro s hs' hl e he het
    obtain ⟨hu, hp⟩ := hs'.use e he
    obtain ⟨f', hf'⟩ := total_pos.1 (show 0 < total s e.target by omega)
    exact hl f' (het ▸ hf')
  have hact : ¬ Active st1 g := by
    unfold step activate at hs
    simp only [] at hs
    rw [if_neg (hnl f)] at hs
    by_cases hfull : cfg.use ≤ (st.list f).length
    · rw [if_pos hfull] at hs
      have hlt : k % (st.list f).length < (st.list f).length := Nat.mod_lt _ (by omega)
      rw [List.getElem?_eq_getElem hlt] at hs
      simp only [] at hs
      obtain ⟨s1, h1, h2, h3, h4, _⟩ := remove_ok hi (f := f) (List.getElem_mem hlt)
      rw [h1] at hs
      simp only [Option.some.injEq] at hs
      have hl1 : ∀ f', g ∉ s1.list f' := by
        intro f' hf'
        by_cases hff : f' = f
        · subst hff; rw [h3] at hf'; exact hnl _ (List.mem_of_mem_erase hf')
        · rw [h4 f' hff] at hf'; exact hnl _ hf'
      obtain ⟨_, e2, e3⟩ := enter_refused (cfg := cfg) (f := f) hr (hne s1 h2 hl1)
      rw [← hs]
      rintro (hx | hx)
      · rw [e2] at hx; exact hl1 .v4 hx
      · rw [e3] at hx; exact hl1 .v6 hx
    · rw [if_neg hfull] at hs
      simp only [Option.some.injEq] at hs
      obtain ⟨_, e2, e3⟩ := enter_refused (cfg := cfg) (f := f) hr (hne st hi hnl)
      rw [← hs]
      rintro (hx | hx)
      · rw [e2] at hx; exact hnl .v4 hx
      · rw [e3] at hx; exact hnl .v6 hx
  refine ⟨hact, ?_⟩
  obtain ⟨s2, h2, h3, _⟩ := C103_tunnels_in_use cfg huse (ops ++ [.choose f g ok up k])
  rw [hrun] at h2
  injection h2 with h2
  subst h2
  intro name hk
  exact hact ((h3 g).1 ⟨name, hk⟩)

private theorem cleanup_all : ∀ (n : Nat) (st : St), st.tree.length = n →
    st.kern = st.tree.map (fun e => (e.name, e.target)) → (st.tree.map (·.target)).Nodup →
    (st.tree.map (·.name)).Nodup →
    ∃ st1, cleanup n st = some st1 ∧ st1.kern = [] ∧ st1.tree = []
  | 0, st, hl, hk, _, _ => by
    have ht : st.tree = [] := List.length_eq_zero_iff.1 hl
    exact ⟨st, rfl, by rw [hk, ht]; rfl, ht⟩
  | n + 1, st, hl, hk, ht, hn => by
    unfold cleanup
    cases hx : st.tree with
    | nil => rw [hx] at hl; cases hl
    | cons e r =>
      rw [hx] at hl hk ht hn
      simp only [List.map_cons, List.nodup_cons] at ht hn hk
      simp only [List.length_cons, Nat.add_right_cancel_iff] at hl
      simp only []
      have hd : delTunnel e.target { st with tree := { e with usage := 1 } :: r }
          = some { st with kern := r.map (fun e => (e.name, e.target)), tree := r } := by
        unfold delTunnel
        simp only [List.find?_cons, beq_self_eq_true]
        simp only [Nat.one_ne_zero, if_false, Nat.sub_self, Nat.lt_irrefl, List.filter_cons, ne_eq,
          not_true_eq_false, decide_false, Bool.false_eq_true, hk]
        congr 2
        · rw [List.filter_eq_self]
          intro k hkm
          obtain ⟨y, hy, rfl⟩ := List.mem_map.1 hkm
          simp only [decide_eq_true_eq]
          intro h
          exact hn.1 (h ▸ List.mem_map_of_mem hy)
        · rw [List.filter_eq_self]
          intro y hy
          simp only [decide_eq_true_eq]
          intro h
          exact ht.1 (h ▸ List.mem_map_of_mem hy)
      rw [hd]
      exact cleanup_all n _ hl rfl ht.2 hn.2

/-- **C103.** At shutdown the loop of `olsr_os_cleanup_iptunnel` removes every tunnel, with one round
for each, whatever is still in use. -/
theorem C103_cleanup (cfg : Cfg) (huse : 0 < cfg.use) (ops : List Op) (st : St)
    (h : run cfg (start cfg) ops = some st) :
    ∃ st1, cleanup st.tree.length st = some st1 ∧ st1.kern = [] ∧ st1.tree = [] := by
  obtain ⟨st1, h1, hi⟩ := run_inv huse ops (inv_start cfg)
  rw [h] at h1
  injection h1 with h1
  subst h1
  exact cleanup_all _ st rfl hi.kern hi.tnd hi.nnd

/-- Two families share a tunnel: it survives the loss of one of them. -/
example :
    ((run ⟨false, 2⟩ (start ⟨false, 2⟩) [.choose .v4 7 true true 0, .choose .v6 7 true true 0,
      .choose .v4 8 true false 0, .choose .v4 9 true true 0, .drop .v6 7]).map
      fun st => (st.kern, st.l4, st.l6)) =
    some ([(.ctr 2, 9), (.slot 0, 7)], [9, 7], []) := by decide +kernel

example :
    ((run ⟨true, 1⟩ (start ⟨true, 1⟩) [.choose .v4 7 true true 0, .choose .v4 8 true true 0,
      .choose .v4 9 false true 0]).map fun st => (st.kern, st.tree, st.l4)) =
    some ([], [], []) := by decide +kernel

/-! ### C104: the interface names -/

/-- **C104 (part).** With more than one gateway (`SmartGatewayUseCount` above 1) and events of one
family only, every gateway in use has exactly one of the interface names, its tunnel bears this name,
and names that no gateway in use has are free.  Missing: gateways used for both families, for which
it fails, see below. -/
theorem C104_names_partial (cfg : Cfg) (hm : 1 < cfg.use) (f : Fam) (ops : List Op)
    (hf : ∀ op ∈ ops, famOf op = f) :
    ∃ st, run cfg (start cfg) ops = some st ∧ st.slots.length = cfg.use ∧
      (∀ g, g ∈ st.list f → ∃ i, st.slots[i]? = some (some g) ∧ (Name.slot i, g) ∈ st.kern ∧
        ∀ j, st.slots[j]? = some (some g) → j = i) ∧
      (∀ (i : Nat) g, st.slots[i]? = some (some g) → g ∈ st.list f) := by
  have hmul : multi cfg = true := by simp [multi, hm]
  obtain ⟨st, h1, hs⟩ := sinv_run hmul ops (sinv_start cfg f) hf
  have hnd : (st.slots.filterMap id).Nodup := hs.perm.nodup_iff.2 (hs.inv.nd f)
  refine ⟨st, h1, hs.slen, ?_, ?_⟩
  · intro g hg
    obtain ⟨i, hi⟩ := mem_filterMap_iff.1 (hs.perm.mem_iff.2 hg)
    refine ⟨i, hi, ?_, fun j hj => slot_unique hnd hj hi⟩
    obtain ⟨e, he, het⟩ := hs.inv.cov f g hg
    have hn := hs.name e he i (by rw [het]; exact hi)
    rw [hs.inv.kern, ← hn, ← het]
    exact List.mem_map_of_mem (f := fun e : Ent => (e.name, e.target)) he
  · intro i g hi
    exact hs.perm.mem_iff.1 (mem_filterMap_iff.2 ⟨i, hi⟩)

/-- **C104 (part).** With one family, a gateway that is chosen comes into use unless the kernel
refuses for a reason other than its name: olsrd never asks for a name that is in use.  Missing:
gateways used for both families. -/
theorem C104_never_refused_partial (cfg : Cfg) (hm : 1 < cfg.use) (f : Fam) (ops : List Op)
    (hf : ∀ op ∈ ops, famOf op = f) (st : St) (h : run cfg (start cfg) ops = some st) (g k : Nat) :
    ∃ st1, step cfg st (.choose f g true true k) = some st1 ∧ g ∈ st1.list f ∧
      (∃ i, (Name.slot i, g) ∈ st1.kern) := by
  have hmul : multi cfg = true := by simp [multi, hm]
  obtain ⟨st0, h0, hs⟩ := sinv_run hmul ops (sinv_start cfg f) hf
  rw [h] at h0
  injection h0 with h0
  subst h0
  obtain ⟨st1, h1, h2, h3⟩ := sinv_choose hmul hs g true true k
  have hg := h3 rfl rfl
  refine ⟨st1, h1, hg, ?_⟩
  obtain ⟨i, hi⟩ := mem_filterMap_iff.1 (h2.perm.mem_iff.2 hg)
  obtain ⟨e, he, het⟩ := h2.inv.cov f g hg
  have hn := h2.name e he i (by rw [het]; exact hi)
  refine ⟨i, ?_⟩
  rw [h2.inv.kern, ← hn, ← het]
  exact List.mem_map_of_mem (f := fun e : Ent => (e.name, e.target)) he

/-- Three gateways with two names: the third takes the name of the one it displaces. -/
example :
    ((run ⟨true, 2⟩ (start ⟨true, 2⟩) [.choose .v4 7 true true 0, .choose .v4 8 true true 0,
      .choose .v4 9 true true 1]).map fun st => (st.kern, st.slots)) =
    some ([(.slot 0, 9), (.slot 1, 8)], [some 9, some 8]) := by decide +kernel

/-- The state after an IPv6 olsrd that also carries IPv4 has used gateway 7 for both families and then
8 and 9 for IPv4. -/
private def clash : St :=
  ⟨[(.ctr 1, 8), (.slot 0, 7)], [⟨8, .ctr 1, 1⟩, ⟨7, .slot 0, 1⟩], [none, some 7], [8], [7], 1⟩

/-- **C104, false for two families.** An IPv6 olsrd that also carries IPv4 takes two names for a
gateway used for both families, although there is one tunnel.  When the gateway is displaced from the
IPv4 list, the name that its tunnel still bears becomes free; the next gateway is given that name,
the kernel refuses it, and the gateway is not used, although nothing else is wrong, although there is
room, and although it has already displaced another one.  Trying again changes nothing. -/
theorem C104_two_families_clash :
    run ⟨false, 2⟩ (start ⟨false, 2⟩) [.choose .v4 7 true true 0, .choose .v6 7 true true 0,
      .choose .v4 8 true true 0, .choose .v4 9 true true 1] = some clash ∧
    9 ∉ clash.l4 ∧ clash.l4.length < 2 ∧
    ∀ n, run ⟨false, 2⟩ clash (List.replicate n (.choose .v4 9 true true 0)) = some clash := by
  refine ⟨by decide +kernel, by decide, by decide, ?_⟩
  intro n
  induction n with
  | zero => rfl
  | succ n ih =>
    have h : step ⟨false, 2⟩ clash (.choose .v4 9 true true 0) = some clash := by decide +kernel
    rw [List.replicate_succ]
    unfold run
    rw [h]
    exact ih

end Verif.Tunnel
