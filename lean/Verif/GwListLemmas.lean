import Verif.GwListModel
/-
Facts about the model of the gateway list.
-/
namespace Verif.GwList

theorem mem_insert (cost : Nat → Nat) (g x : Nat) (l : List Nat) :
    x ∈ insert cost g l ↔ x = g ∨ x ∈ l := by
  induction l with
  | nil => simp [insert]
  | cons y l ih =>
    simp only [insert]
    split
    · simp
    · simp only [List.mem_cons, ih]
      constructor
      · rintro (h | h | h)
        · exact Or.inr (Or.inl h)
        · exact Or.inl h
        · exact Or.inr (Or.inr h)
      · rintro (h | h | h)
        · exact Or.inr (Or.inl h)
        · exact Or.inl h
        · exact Or.inr (Or.inr h)

theorem length_insert (cost : Nat → Nat) (g : Nat) (l : List Nat) :
    (insert cost g l).length = l.length + 1 := by
  induction l with
  | nil => rfl
  | cons y l ih =>
    simp only [insert]
    split
    · simp
    · simp [ih]

theorem nodup_insert (cost : Nat → Nat) (g : Nat) (l : List Nat) (h : l.Nodup) (hg : g ∉ l) :
    (insert cost g l).Nodup := by
  induction l with
  | nil => simp [insert]
  | cons y l ih =>
    simp only [insert]
    split
    · exact List.nodup_cons.2 ⟨hg, h⟩
    · obtain ⟨hy, hl⟩ := List.nodup_cons.1 h
      have hgl : g ∉ l := fun hm => hg (List.mem_cons_of_mem _ hm)
      refine List.nodup_cons.2 ⟨?_, ih hl hgl⟩
      intro hm
      rcases (mem_insert cost g y l).1 hm with e | hm
      · exact hg (by rw [e]; exact List.mem_cons_self ..)
      · exact hy hm

/-- Ordered by cost. -/
def Sorted (cost : Nat → Nat) (l : List Nat) : Prop := l.Pairwise (fun a b => cost a ≤ cost b)

theorem sorted_insert (cost : Nat → Nat) (g : Nat) (l : List Nat) (h : Sorted cost l) :
    Sorted cost (insert cost g l) := by
  induction l with
  | nil => simp [insert, Sorted]
  | cons y l ih =>
    obtain ⟨hy, hl⟩ := List.pairwise_cons.1 h
    simp only [insert]
    split
    · rename_i hle
      refine List.pairwise_cons.2 ⟨?_, h⟩
      intro x hx
      rcases List.mem_cons.1 hx with e | hx
      · rw [e]; exact hle
      · exact Nat.le_trans hle (hy x hx)
    · rename_i hle
      refine List.pairwise_cons.2 ⟨?_, ih hl⟩
      intro x hx
      rcases (mem_insert cost g x l).1 hx with e | hx
      · rw [e]; omega
      · exact hy x hx

theorem sorted_erase (cost : Nat → Nat) (g : Nat) (l : List Nat) (h : Sorted cost l) :
    Sorted cost (l.erase g) := List.Pairwise.sublist List.erase_sublist h

/-- What holds in every reachable state. -/
structure Ok (s : St) : Prop where
  nodup : s.list.Nodup
  count : s.count = s.list.length
  full : s.list.length ≤ s.max
  pos : 0 < s.max
  byte : s.max ≤ 255
  cur : ∀ g, s.cur = .at g → g ∈ s.list

theorem remove_ok (s : St) (g : Nat) (h : Ok s) (hg : g ∈ s.list) :
    ∃ s', remove s g = some s' ∧ s'.list = s.list.erase g ∧ s'.count + 1 = s.count ∧
      s'.count = s'.list.length ∧ s'.cost = s.cost ∧ s'.max = s.max ∧ s'.cur = s.cur := by
  have hp : 0 < s.list.length := List.length_pos_of_mem hg
  have hc := h.count
  have hf := h.full
  have hb := h.byte
  unfold remove
  rw [if_neg (show ¬ s.count = 0 by omega)]
  refine ⟨_, rfl, rfl, ?_, ?_, rfl, rfl, rfl⟩
  · show (s.count + 255) % 256 + 1 = s.count
    omega
  · show (s.count + 255) % 256 = (s.list.erase g).length
    rw [List.length_erase_of_mem hg]
    omega

theorem drop_ok (s : St) (g : Nat) (h : Ok s) (hg : g ∈ s.list) :
    ∃ s', drop s g = some s' ∧ Ok s' ∧ s'.list = s.list.erase g ∧ s'.count + 1 = s.count ∧
      s'.cost = s.cost ∧ s'.max = s.max ∧ s'.cur = (if s.cur = .at g then .freed else s.cur) := by
  obtain ⟨s', h1, h2, h3, h4, h5, h6, h7⟩ := remove_ok s g h hg
  have hf := h.full
  have hc := h.count
  unfold drop
  rw [h1]
  refine ⟨_, rfl, ⟨?_, h4, ?_, ?_, ?_, ?_⟩, h2, h3, h5, h6, rfl⟩
  · show s'.list.Nodup
    rw [h2]; exact h.nodup.erase g
  · show s'.list.length ≤ s'.max
    rw [h6, h2]; exact Nat.le_trans (List.length_erase_le) hf
  · show 0 < s'.max
    rw [h6]; exact h.pos
  · show s'.max ≤ 255
    rw [h6]; exact h.byte
  · intro x hx
    show x ∈ s'.list
    have hx : (if s.cur = .at g then .freed else s.cur) = Cur.at x := hx
    split at hx
    · cases hx
    · rename_i hn
      rw [h2]
      have hne : x ≠ g := fun e => hn (by rw [hx, e])
      exact (List.mem_erase_of_ne hne).2 (h.cur x hx)

theorem add_ok (s : St) (g : Nat) (h : Ok s) (hg : g ∉ s.list) (hr : s.count < s.max) :
    ∃ s', add s g = some s' ∧ Ok s' ∧ s'.list = insert s.cost g s.list ∧
      s'.cost = s.cost ∧ s'.max = s.max ∧ s'.cur = s.cur := by
  have hc := h.count
  have hb := h.byte
  unfold add
  rw [if_neg (show ¬ s.max ≤ s.count by omega)]
  refine ⟨_, rfl, ⟨?_, ?_, ?_, h.pos, h.byte, ?_⟩, rfl, rfl, rfl, rfl⟩
  · exact nodup_insert _ _ _ h.nodup hg
  · show (s.count + 1) % 256 = (insert s.cost g s.list).length
    rw [length_insert]; omega
  · show (insert s.cost g s.list).length ≤ s.max
    rw [length_insert]; omega
  · intro x hx
    exact (mem_insert ..).2 (Or.inr (h.cur x hx))

theorem start_ok (max : Nat) (h0 : 0 < max) (h1 : max ≤ 255) : Ok (start max) := by
  refine ⟨List.nodup_nil, rfl, ?_, h0, h1, ?_⟩
  · exact Nat.zero_le _
  · intro g hg
    cases hg

theorem ok_cost (s : St) (f : Nat → Nat) (h : Ok s) : Ok { s with cost := f } :=
  ⟨h.nodup, h.count, h.full, h.pos, h.byte, h.cur⟩

theorem ok_cur (s : St) (c : Cur) (h : Ok s) (hc : ∀ g, c = .at g → g ∈ s.list) :
    Ok { s with cur := c } :=
  ⟨h.nodup, h.count, h.full, h.pos, h.byte, hc⟩

theorem worst_ok (s : St) (h : Ok s) (hf : s.max ≤ s.count) :
    ∃ w, worst s = some w ∧ w ∈ s.list ∧ ∃ l, s.list = l ++ [w] := by
  have hc := h.count
  have hp := h.pos
  unfold worst
  rw [if_neg (show ¬ s.count = 0 by omega)]
  have hne : s.list ≠ [] := by
    intro e
    rw [e] at hc
    simp at hc
    omega
  refine ⟨s.list.getLast hne, List.getLast?_eq_some_getLast hne, List.getLast_mem hne, s.list.dropLast, ?_⟩
  exact (List.dropLast_concat_getLast hne).symm

/-- What `setGateway` does. -/
theorem set_ok (s : St) (g : Nat) (t : Bool) (h : Ok s) (hc : s.cur ≠ .freed) :
    ∃ s', setGateway s g t = some s' ∧ Ok s' ∧ s'.cost = s.cost ∧ s'.max = s.max ∧
      (Sorted s.cost s.list → Sorted s.cost s'.list) ∧
      (t = true → s'.cur = .at g) ∧
      (∀ x, x ∈ s'.list → x = g ∨ x ∈ s.list) := by
  unfold setGateway
  rw [if_neg hc]
  split
  · rename_i hg
    exact ⟨s, rfl, h, rfl, rfl, id, fun _ => hg, fun x hx => Or.inr hx⟩
  · split
    · rename_i hm
      refine ⟨_, rfl, ok_cur s _ h ?_, rfl, rfl, id, fun _ => rfl, fun x hx => Or.inr hx⟩
      intro x hx
      cases hx
      exact hm
    · rename_i hne hm
      by_cases hfull : s.max ≤ s.count
      · rw [if_pos hfull]
        obtain ⟨w, hw, hwm, -⟩ := worst_ok s h hfull
        obtain ⟨s1, e1, o1, l1, c1, k1, m1, u1⟩ := drop_ok s w h hwm
        rw [hw]
        simp only [e1, Option.bind_eq_bind, Option.bind_some]
        have hsub : ∀ x, x ∈ s1.list → x ∈ s.list := by
          intro x hx
          rw [l1] at hx
          exact List.mem_of_mem_erase hx
        cases t with
        | false =>
          rw [if_neg (by decide)]
          refine ⟨s1, rfl, o1, k1, m1, ?_, ?_, fun x hx => Or.inr (hsub x hx)⟩
          · intro hs
            rw [l1]
            exact sorted_erase _ _ _ hs
          · intro e
            cases e
        | true =>
          rw [if_pos rfl]
          have hg1 : g ∉ s1.list := fun hx => hm (hsub g hx)
          have hcnt : s1.count < s1.max := by
            have := h.count
            have := h.full
            omega
          obtain ⟨s2, e2, o2, l2, k2, m2, u2⟩ := add_ok s1 g o1 hg1 hcnt
          simp only [e2, Option.bind_some]
          refine ⟨_, rfl, ok_cur s2 _ o2 ?_, ?_, ?_, ?_, fun _ => rfl, ?_⟩
          · intro x hx
            cases hx
            rw [l2]
            exact (mem_insert ..).2 (Or.inl rfl)
          · show s2.cost = s.cost
            rw [k2, k1]
          · show s2.max = s.max
            rw [m2, m1]
          · intro hs
            show Sorted s.cost s2.list
            rw [l2, k1, l1]
            exact sorted_insert _ _ _ (sorted_erase _ _ _ hs)
          · intro x hx
            have hx : x ∈ s2.list := hx
            rw [l2] at hx
            rcases (mem_insert ..).1 hx with e | hx
            · exact Or.inl e
            · exact Or.inr (hsub x hx)
      · rw [if_neg hfull]
        simp only [Option.bind_eq_bind, Option.bind_some]
        cases t with
        | false =>
          rw [if_neg (by decide)]
          refine ⟨s, rfl, h, rfl, rfl, id, ?_, fun x hx => Or.inr hx⟩
          intro e
          cases e
        | true =>
          rw [if_pos rfl]
          obtain ⟨s2, e2, o2, l2, k2, m2, u2⟩ := add_ok s g h hm (by omega)
          simp only [e2, Option.bind_some]
          refine ⟨_, rfl, ok_cur s2 _ o2 ?_, k2, m2, ?_, fun _ => rfl, ?_⟩
          · intro x hx
            cases hx
            rw [l2]
            exact (mem_insert ..).2 (Or.inl rfl)
          · intro hs
            show Sorted s.cost s2.list
            rw [l2]
            exact sorted_insert _ _ _ hs
          · intro x hx
            have hx : x ∈ s2.list := hx
            rw [l2] at hx
            exact (mem_insert ..).1 hx

theorem resort_ok (s : St) (g : Nat) (h : Ok s) (hg : g ∈ s.list) :
    ∃ s', resort s g = some s' ∧ Ok s' ∧ s'.list = insert s.cost g (s.list.erase g) ∧
      s'.cost = s.cost ∧ s'.max = s.max ∧ s'.cur = s.cur := by
  obtain ⟨s1, h1, h2, h3, h4, h5, h6, h7⟩ := remove_ok s g h hg
  have hc := h.count
  have hf := h.full
  have hb := h.byte
  have hlen := List.length_erase_of_mem hg
  have hn : g ∉ s.list.erase g := by
    intro hm
    exact ((List.Nodup.mem_erase_iff h.nodup).1 hm).1 rfl
  unfold resort
  simp only [h1, Option.bind_eq_bind, Option.bind_some]
  unfold add
  rw [if_neg (show ¬ s1.max ≤ s1.count by omega)]
  have hp : 0 < s.list.length := List.length_pos_of_mem hg
  refine ⟨_, rfl, ⟨?_, ?_, ?_, ?_, ?_, ?_⟩, ?_, h5, h6, h7⟩
  · show (insert s1.cost g s1.list).Nodup
    rw [h2]
    exact nodup_insert _ _ _ (h.nodup.erase g) hn
  · show (s1.count + 1) % 256 = (insert s1.cost g s1.list).length
    rw [length_insert]; omega
  · show (insert s1.cost g s1.list).length ≤ s1.max
    rw [length_insert, h2, hlen, h6]; omega
  · show 0 < s1.max
    rw [h6]; exact h.pos
  · show s1.max ≤ 255
    rw [h6]; exact h.byte
  · intro x hx
    have hx : s1.cur = .at x := hx
    rw [h7] at hx
    show x ∈ insert s1.cost g s1.list
    rw [mem_insert, h2]
    by_cases e : x = g
    · exact Or.inl e
    · exact Or.inr ((List.mem_erase_of_ne e).2 (h.cur x hx))
  · show insert s1.cost g s1.list = _
    rw [h5, h2]

/-- The costs after an update. -/
def newCost (s : St) (g new : Nat) : Nat → Nat := fun x => if x = g then new else s.cost x

theorem sorted_erase_new (s : St) (g new : Nat) (h : Ok s) (hs : Sorted s.cost s.list) :
    Sorted (newCost s g new) (s.list.erase g) := by
  have h1 := sorted_erase s.cost g s.list hs
  refine List.Pairwise.imp_of_mem ?_ h1
  intro a b ha hb hab
  have ha := ((List.Nodup.mem_erase_iff h.nodup).1 ha).1
  have hb := ((List.Nodup.mem_erase_iff h.nodup).1 hb).1
  show (if a = g then new else s.cost a) ≤ (if b = g then new else s.cost b)
  rw [if_neg ha, if_neg hb]
  exact hab

theorem update_ok (s : St) (g new : Nat) (h : Ok s) :
    ∃ s', updateCost s g new = some s' ∧ Ok s' ∧ s'.cost = newCost s g new ∧ s'.max = s.max ∧
      s'.cur = s.cur ∧ (∀ x, x ∈ s'.list ↔ x ∈ s.list) ∧
      ((g ∈ s.list → new ≠ int64Max) → Sorted s.cost s.list → Sorted (newCost s g new) s'.list) := by
  unfold updateCost
  have hcost : (fun x => if x = g then new else if x = g then int64Max else s.cost x) = newCost s g new := by
    funext x
    show _ = if x = g then new else s.cost x
    by_cases e : x = g
    · rw [if_pos e, if_pos e]
    · rw [if_neg e, if_neg e, if_neg e]
  simp only [hcost, if_true]
  have ho := ok_cost s (newCost s g new) h
  split
  · rename_i hc
    obtain ⟨s', e1, o1, l1, k1, m1, u1⟩ := resort_ok _ g ho hc.2
    refine ⟨s', e1, o1, k1, m1, u1, ?_, ?_⟩
    · intro x
      rw [l1, mem_insert]
      constructor
      · rintro (e | hx)
        · rw [e]; exact hc.2
        · exact List.mem_of_mem_erase hx
      · intro hx
        by_cases e : x = g
        · exact Or.inl e
        · exact Or.inr ((List.mem_erase_of_ne e).2 hx)
    · intro _ hs
      rw [l1]
      exact sorted_insert _ _ _ (sorted_erase_new s g new h hs)
  · rename_i hc
    refine ⟨_, rfl, ho, rfl, rfl, rfl, fun x => Iff.rfl, ?_⟩
    intro hn hs
    have hg : g ∉ s.list := by
      intro hg
      apply hc
      refine ⟨?_, hg⟩
      exact fun e => hn hg e.symm
    show Sorted (newCost s g new) s.list
    refine List.Pairwise.imp_of_mem ?_ hs
    intro a b ha hb hab
    show (if a = g then new else s.cost a) ≤ (if b = g then new else s.cost b)
    rw [if_neg (fun e : a = g => hg (e ▸ ha)), if_neg (fun e : b = g => hg (e ▸ hb))]
    exact hab

theorem delete_ok (s : St) (g : Nat) (h : Ok s) (hc : s.cur ≠ .freed) :
    ∃ s', deleteGw s g = some s' ∧ Ok s' ∧ s'.cost = s.cost ∧ s'.max = s.max ∧
      s'.list = s.list.erase g ∧ s'.cur = (if s.cur = .at g then .none else s.cur) := by
  unfold deleteGw
  by_cases hg : g ∈ s.list
  · rw [if_pos hg, if_neg hc]
    obtain ⟨c, hcc⟩ : ∃ c, (if s.cur = .at g then Cur.none else s.cur) = c := ⟨_, rfl⟩
    rw [hcc]
    have ho : Ok { s with cur := Cur.none } := ok_cur s _ h (fun x hx => by cases hx)
    obtain ⟨s1, h1, h2, h3, h4, h5, h6, h7⟩ := remove_ok _ g ho hg
    unfold remove at h1 ⊢
    by_cases h0 : s.count = 0
    · rw [if_pos h0] at h1
      cases h1
    · rw [if_neg h0] at h1 ⊢
      have h1 := Option.some.inj h1
      have e1 : s1.list = s.list.erase g := h2
      have hcount : (s.count + 255) % 256 = (s.list.erase g).length := by
        rw [← h1] at h4
        exact h4
      refine ⟨_, rfl, ⟨h.nodup.erase g, hcount, ?_, h.pos, h.byte, ?_⟩, rfl, rfl, rfl, rfl⟩
      · exact Nat.le_trans List.length_erase_le h.full
      · intro x hx
        have hx : c = .at x := hx
        show x ∈ s.list.erase g
        rw [hx] at hcc
        split at hcc
        · cases hcc
        · rename_i hne
          have hxg : x ≠ g := fun e => hne (by rw [hcc, e])
          exact (List.mem_erase_of_ne hxg).2 (h.cur x hcc)
  · rw [if_neg hg]
    refine ⟨s, rfl, h, rfl, rfl, ?_, ?_⟩
    · exact (List.erase_of_not_mem hg).symm
    · rw [if_neg]
      intro e
      exact hg (h.cur g e)

/-- Dropping gateways off the end. -/
theorem drops_ok (d : List Nat) : ∀ (s : St) (r : List Nat), Ok s → s.list = r ++ d.reverse →
    (∀ x, x ∈ d → s.cur ≠ .at x) →
    ∃ s', drops d s = some s' ∧ Ok s' ∧ s'.list = r ∧ s'.cost = s.cost ∧ s'.max = s.max ∧
      s'.cur = s.cur := by
  induction d with
  | nil =>
    intro s r h hl _
    exact ⟨s, rfl, h, by simpa using hl, rfl, rfl, rfl⟩
  | cons x d ih =>
    intro s r h hl hcur
    rw [List.reverse_cons, ← List.append_assoc] at hl
    have hx : x ∈ s.list := by rw [hl]; simp
    obtain ⟨s1, e1, o1, l1, c1, k1, m1, u1⟩ := drop_ok s x h hx
    have hnd := h.nodup
    rw [hl] at hnd
    have hxn : x ∉ r ++ d.reverse := by
      intro hm
      have := (List.nodup_append.1 hnd).2.2 x hm x (List.mem_cons_self ..)
      exact this rfl
    rw [hl, List.erase_append_right _ hxn] at l1
    simp only [List.erase_cons_head, List.append_nil] at l1
    rw [if_neg (hcur x (List.mem_cons_self ..))] at u1
    obtain ⟨s', e2, o2, l2, k2, m2, u2⟩ := ih s1 r o1 l1 (by
      intro y hy
      rw [u1]
      exact hcur y (List.mem_cons_of_mem _ hy))
    refine ⟨s', ?_, o2, l2, k2.trans k1, m2.trans m1, u2.trans u1⟩
    simp only [drops, e1, Option.bind_eq_bind, Option.bind_some]
    exact e2

/-- The loop takes a prefix of the reversed list. -/
theorem takeLoop_spec (cost : Nat → Nat) (b cur : Nat) : ∀ l : List Nat,
    ∃ r, l = takeLoop cost b cur l ++ r ∧
      (∀ x, x ∈ takeLoop cost b cur l → x ≠ cur ∧ b ≤ cost x) ∧
      (l ≠ [] → ∃ y t, r = y :: t ∧ (y = cur ∨ cost y < b ∨ t = []))
  | [] => ⟨[], rfl, fun _ h => (by cases h), fun h => absurd rfl h⟩
  | [x] => ⟨[x], rfl, fun _ h => (by cases h), fun _ => ⟨x, [], rfl, Or.inr (Or.inr rfl)⟩⟩
  | x :: y :: l => by
    unfold takeLoop
    split
    · rename_i e
      exact ⟨x :: y :: l, rfl, fun _ h => (by cases h), fun _ => ⟨x, y :: l, rfl, Or.inl e⟩⟩
    · rename_i hne
      split
      · rename_i hlt
        exact ⟨x :: y :: l, rfl, fun _ h => (by cases h), fun _ => ⟨x, y :: l, rfl, Or.inr (Or.inl hlt)⟩⟩
      · rename_i hge
        obtain ⟨r, h1, h2, h3⟩ := takeLoop_spec cost b cur (y :: l)
        refine ⟨r, ?_, ?_, fun _ => h3 (by simp)⟩
        · rw [List.cons_append, ← h1]
        · intro z hz
          rcases List.mem_cons.1 hz with e | hz
          · rw [e]; exact ⟨hne, by omega⟩
          · exact h2 z hz

end Verif.GwList
