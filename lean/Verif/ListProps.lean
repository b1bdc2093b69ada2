import Verif.ListLemmas

/-!
# C30: the linked-list primitives
-/

namespace Verif.LList

/-- the lists as the callers see them: for each list head its elements -/
abbrev World := Nat → Option (List Nat)

/-- a node that is a list head or an element of a list -/
def Used (W : World) (n : Nat) : Prop := ∃ h xs, W h = some xs ∧ (n = h ∨ n ∈ xs)

/-- what an operation is for -/
def spec (W : World) : Op → World
  | .headInit n => fun h => if h = n then some [] else W h
  | .addAfter p n => fun h => (W h).map fun xs =>
      if h = p then n :: xs else xs.flatMap fun x => if x = p then [x, n] else [x]
  | .addBefore p n => fun h => (W h).map fun xs =>
      if h = p then xs ++ [n] else xs.flatMap fun x => if x = p then [n, x] else [x]
  | .remove n => fun h => (W h).map fun xs => xs.filter (· ≠ n)
  | .merge h1 h2 => fun h =>
      if h = h1 then some ((W h2).getD [] ++ (W h1).getD []) else if h = h2 then some [] else W h

/-- what the caller has to see to -/
def Op.Ok (W : World) : Op → Prop
  | .headInit n => ¬ Used W n
  | .addAfter p n => Used W p ∧ ¬ Used W n
  | .addBefore p n => Used W p ∧ ¬ Used W n
  | .remove n => ∃ h xs, W h = some xs ∧ n ∈ xs
  | .merge h1 h2 => h1 ≠ h2 ∧ (W h1).isSome ∧ (W h2).isSome

/-- every operation of the sequence is called properly -/
def AllOk : World → List Op → Prop
  | _, [] => True
  | W, o :: os => o.Ok W ∧ AllOk (spec W o) os

/-- the heap represents the lists -/
private structure Rel (σ : Heap) (W : World) : Prop where
  ring : ∀ h xs, W h = some xs → Ring σ (h :: xs)
  nodup : ∀ h xs, W h = some xs → (h :: xs).Nodup
  disj : ∀ h k xs ys, W h = some xs → W k = some ys → h ≠ k → ∀ a ∈ h :: xs, a ∉ k :: ys
  free : ∀ n, ¬ Used W n → σ.next n = none ∧ σ.prev n = none

private def put (W : World) (h : Nat) (zs : List Nat) : World := fun k => if k = h then some zs else W k

private theorem used_iff {W : World} {n : Nat} : Used W n ↔ ∃ h xs, W h = some xs ∧ n ∈ h :: xs := by
  simp [Used]

/-- replacing the elements of one list -/
private theorem Rel.put {σ τ : Heap} {W : World} (hr : Rel σ W) {h : Nat} {xs zs : List Nat} (hw : W h = some xs)
    (ring : Ring τ (h :: zs)) (nd : (h :: zs).Nodup)
    (same : ∀ y, y ∉ h :: xs → y ∉ h :: zs → τ.next y = σ.next y ∧ τ.prev y = σ.prev y)
    (new : ∀ y ∈ h :: zs, y ∈ h :: xs ∨ ¬ Used W y)
    (gone : ∀ y ∈ h :: xs, y ∉ h :: zs → τ.next y = none ∧ τ.prev y = none) : Rel τ (put W h zs) := by
  have other : ∀ k ys, W k = some ys → k ≠ h → ∀ a ∈ k :: ys, a ∉ h :: zs := by
    intro k ys hk hkh a ha ha'
    rcases new a ha' with h1 | h1
    · exact hr.disj h k xs ys hw hk (Ne.symm hkh) a h1 ha
    · exact h1 (used_iff.2 ⟨k, ys, hk, ha⟩)
  refine ⟨?_, ?_, ?_, ?_⟩
  · intro k ys hk
    by_cases e : k = h
    · subst e
      simp [LList.put] at hk
      subst hk; exact ring
    · simp only [LList.put, if_neg e] at hk
      refine (hr.ring k ys hk).frame fun y hy => same y ?_ (other k ys hk e y hy)
      exact fun h1 => hr.disj h k xs ys hw hk (Ne.symm e) y h1 hy
  · intro k ys hk
    by_cases e : k = h
    · subst e
      simp [LList.put] at hk
      subst hk; exact nd
    · simp only [LList.put, if_neg e] at hk
      exact hr.nodup k ys hk
  · intro k l ys ys' hk hl hkl a ha ha'
    by_cases e : k = h
    · subst e
      simp [LList.put] at hk
      subst hk
      simp only [LList.put, if_neg (Ne.symm hkl)] at hl
      exact other l _ hl (Ne.symm hkl) a ha' ha
    · simp only [LList.put, if_neg e] at hk
      by_cases e' : l = h
      · subst e'
        simp [LList.put] at hl
        subst hl
        exact other k _ hk e a ha ha'
      · simp only [LList.put, if_neg e'] at hl
        exact hr.disj k l _ _ hk hl hkl a ha ha'
  · intro n hn
    have hnz : n ∉ h :: zs := fun hm => hn (used_iff.2 ⟨h, zs, by simp [LList.put], hm⟩)
    by_cases hx : n ∈ h :: xs
    · exact gone n hx hnz
    · obtain ⟨e1, e2⟩ := same n hx hnz
      rw [e1, e2]
      refine hr.free n ?_
      intro hu
      obtain ⟨k, ys, hk, hm⟩ := used_iff.1 hu
      by_cases e : k = h
      · subst e
        rw [hw] at hk
        cases hk
        exact hx hm
      · exact hn (used_iff.2 ⟨k, ys, by simp [LList.put, e, hk], hm⟩)

private theorem flat_id {p : Nat} (f : Nat → List Nat) (xs : List Nat) (h : p ∉ xs) (hf : ∀ x, x ≠ p → f x = [x]) :
    xs.flatMap f = xs := by
  induction xs with
  | nil => rfl
  | cons x xs ih =>
    simp only [List.mem_cons, not_or] at h
    rw [List.flatMap_cons, ih h.2, hf x (Ne.symm h.1)]
    rfl

private theorem map_get {α : Type} (o : Option (List α)) (f : List α → List α) (h : ∀ ys, o = some ys → f ys = ys) :
    o.map f = o := by
  cases o with
  | none => rfl
  | some ys => simp [h ys rfl]

/-- the list holding `p` is found, turned so that `p` comes first and turned back -/
private theorem split_at {p h : Nat} {xs : List Nat} (hp : p = h ∨ p ∈ xs) :
    (p = h) ∨ (∃ A B, xs = A ++ p :: B) := by
  rcases hp with rfl | hp
  · exact .inl rfl
  · exact .inr (List.append_of_mem hp)

private theorem addAfter_ok {σ : Heap} {W : World} (hr : Rel σ W) {p n : Nat} (hp : Used W p) (hn : ¬ Used W n) :
    ∃ τ, addAfter σ p n = some τ ∧ Rel τ (spec W (.addAfter p n)) := by
  obtain ⟨h, xs, hw, hm⟩ := hp
  have hring := hr.ring h xs hw
  have hnd := hr.nodup h xs hw
  have hnx : n ∉ h :: xs := fun hm => hn (used_iff.2 ⟨h, xs, hw, hm⟩)
  have others : ∀ k ys, W k = some ys → k ≠ h → p ∉ k :: ys := fun k ys hk e =>
    hr.disj h k xs ys hw hk (Ne.symm e) p (by simpa using hm)
  -- the new list
  obtain ⟨zs, hzs⟩ : ∃ zs, (if h = p then n :: xs else xs.flatMap fun x => if x = p then [x, n] else [x]) = zs := ⟨_, rfl⟩
  have hspec : spec W (.addAfter p n) = put W h zs := by
    funext k
    simp only [spec, put]
    by_cases e : k = h
    · rw [if_pos e, e, hw, Option.map_some, hzs]
    · rw [if_neg e]
      refine map_get _ _ fun ys hk => ?_
      have := others k ys hk e
      simp only [List.mem_cons, not_or] at this
      rw [if_neg (Ne.symm this.1)]
      exact flat_id (p := p) _ ys this.2 fun x hx => by rw [if_neg hx]
  have core : ∃ τ, addAfter σ p n = some τ ∧ Ring τ (h :: zs) ∧ zs.Perm (n :: xs) ∧
      ∀ y, y ∉ h :: xs → y ≠ n → τ.next y = σ.next y ∧ τ.prev y = σ.prev y := by
    by_cases hph : h = p
    · subst hph
      obtain ⟨τ, t1, t2, t3⟩ := addAfter_ring (n := n) hring hnd hnx
      rw [if_pos rfl] at hzs
      subst hzs
      exact ⟨τ, t1, t2, List.Perm.refl _, t3⟩
    · rw [if_neg hph] at hzs
      rcases split_at hm with e | ⟨A, B, rfl⟩
      · exact absurd e.symm hph
      · have hrot : Ring σ (p :: (B ++ (h :: A))) := by
          have : Ring σ ((h :: A) ++ (p :: B)) := hring
          exact this.rotate
        have hperm : (p :: (B ++ (h :: A))).Perm (h :: (A ++ p :: B)) := by
          show ((p :: B) ++ (h :: A)).Perm ((h :: A) ++ (p :: B))
          exact List.perm_append_comm
        obtain ⟨τ, t1, t2, t3⟩ := addAfter_ring (n := n) hrot (hperm.nodup_iff.2 hnd) (by rw [hperm.mem_iff]; exact hnx)
        have nd' : (A ++ p :: B).Nodup := (List.nodup_cons.1 hnd).2
        have hA : p ∉ A := fun h1 => (List.nodup_append.1 nd').2.2 p h1 p (by simp) rfl
        have hB : p ∉ B := (List.nodup_cons.1 (List.nodup_append.1 nd').2.1).1
        have hz : zs = A ++ p :: n :: B := by
          rw [← hzs, List.flatMap_append, List.flatMap_cons, if_pos rfl,
            flat_id (p := p) _ A hA (fun x hx => by rw [if_neg hx]), flat_id (p := p) _ B hB (fun x hx => by rw [if_neg hx])]
          rfl
        subst hz
        refine ⟨τ, t1, ?_, ?_, ?_⟩
        · have : Ring τ ((p :: n :: B) ++ (h :: A)) := t2
          exact this.rotate
        · have h1 : (A ++ (p :: n :: B)).Perm (A ++ (n :: p :: B)) := List.Perm.append_left A (List.Perm.swap _ _ _)
          exact h1.trans List.perm_middle
        · intro y hy hyn
          exact t3 y (by rw [hperm.mem_iff]; exact hy) hyn
  obtain ⟨τ, t1, t2, t3, t4⟩ := core
  have hmem : ∀ y, y ∈ h :: zs ↔ y = n ∨ y ∈ h :: xs := by
    intro y
    simp only [List.mem_cons, t3.mem_iff]
    constructor
    · rintro (h | h | h) <;> simp [h]
    · rintro (h | h | h) <;> simp [h]
  refine ⟨τ, t1, ?_⟩
  rw [hspec]
  refine hr.put hw t2 ?_ ?_ ?_ ?_
  · have : (h :: zs).Perm (n :: h :: xs) := (List.Perm.cons h t3).trans (List.Perm.swap _ _ _)
    rw [this.nodup_iff, List.nodup_cons]
    exact ⟨hnx, hnd⟩
  · intro y h1 h2
    exact t4 y h1 fun e => h2 ((hmem y).2 (.inl e))
  · intro y hy
    rcases (hmem y).1 hy with rfl | h1
    · exact .inr hn
    · exact .inl h1
  · intro y h1 h2
    exact absurd ((hmem y).2 (.inr h1)) h2

private theorem addBefore_ok {σ : Heap} {W : World} (hr : Rel σ W) {p n : Nat} (hp : Used W p) (hn : ¬ Used W n) :
    ∃ τ, addBefore σ p n = some τ ∧ Rel τ (spec W (.addBefore p n)) := by
  obtain ⟨h, xs, hw, hm⟩ := hp
  have hring := hr.ring h xs hw
  have hnd := hr.nodup h xs hw
  have hnx : n ∉ h :: xs := fun hm => hn (used_iff.2 ⟨h, xs, hw, hm⟩)
  have others : ∀ k ys, W k = some ys → k ≠ h → p ∉ k :: ys := fun k ys hk e =>
    hr.disj h k xs ys hw hk (Ne.symm e) p (by simpa using hm)
  obtain ⟨zs, hzs⟩ : ∃ zs, (if h = p then xs ++ [n] else xs.flatMap fun x => if x = p then [n, x] else [x]) = zs := ⟨_, rfl⟩
  have hspec : spec W (.addBefore p n) = put W h zs := by
    funext k
    simp only [spec, put]
    by_cases e : k = h
    · rw [if_pos e, e, hw, Option.map_some, hzs]
    · rw [if_neg e]
      refine map_get _ _ fun ys hk => ?_
      have := others k ys hk e
      simp only [List.mem_cons, not_or] at this
      rw [if_neg (Ne.symm this.1)]
      exact flat_id (p := p) _ ys this.2 fun x hx => by rw [if_neg hx]
  have core : ∃ τ, addBefore σ p n = some τ ∧ Ring τ (h :: zs) ∧ zs.Perm (n :: xs) ∧
      ∀ y, y ∉ h :: xs → y ≠ n → τ.next y = σ.next y ∧ τ.prev y = σ.prev y := by
    by_cases hph : h = p
    · subst hph
      obtain ⟨τ, t1, t2, t3⟩ := addBefore_ring (n := n) hring hnd hnx
      rw [if_pos rfl] at hzs
      subst hzs
      exact ⟨τ, t1, t2, List.perm_append_singleton _ _, t3⟩
    · rw [if_neg hph] at hzs
      rcases split_at hm with e | ⟨A, B, rfl⟩
      · exact absurd e.symm hph
      · have hrot : Ring σ (p :: (B ++ (h :: A))) := by
          have : Ring σ ((h :: A) ++ (p :: B)) := hring
          exact this.rotate
        have hperm : (p :: (B ++ (h :: A))).Perm (h :: (A ++ p :: B)) := by
          show ((p :: B) ++ (h :: A)).Perm ((h :: A) ++ (p :: B))
          exact List.perm_append_comm
        obtain ⟨τ, t1, t2, t3⟩ := addBefore_ring (n := n) hrot (hperm.nodup_iff.2 hnd) (by rw [hperm.mem_iff]; exact hnx)
        have nd' : (A ++ p :: B).Nodup := (List.nodup_cons.1 hnd).2
        have hA : p ∉ A := fun h1 => (List.nodup_append.1 nd').2.2 p h1 p (by simp) rfl
        have hB : p ∉ B := (List.nodup_cons.1 (List.nodup_append.1 nd').2.1).1
        have hz : zs = A ++ n :: p :: B := by
          rw [← hzs, List.flatMap_append, List.flatMap_cons, if_pos rfl,
            flat_id (p := p) _ A hA (fun x hx => by rw [if_neg hx]), flat_id (p := p) _ B hB (fun x hx => by rw [if_neg hx])]
          rfl
        subst hz
        refine ⟨τ, t1, ?_, List.perm_middle, ?_⟩
        · have t2' : Ring τ ((p :: B) ++ ((h :: A) ++ [n])) := by
            simpa only [List.cons_append, List.append_assoc] using t2
          have := t2'.rotate
          simpa only [List.cons_append, List.append_assoc, List.nil_append] using this
        · intro y hy hyn
          exact t3 y (by rw [hperm.mem_iff]; exact hy) hyn
  obtain ⟨τ, t1, t2, t3, t4⟩ := core
  have hmem : ∀ y, y ∈ h :: zs ↔ y = n ∨ y ∈ h :: xs := by
    intro y
    simp only [List.mem_cons, t3.mem_iff]
    constructor
    · rintro (h | h | h) <;> simp [h]
    · rintro (h | h | h) <;> simp [h]
  refine ⟨τ, t1, ?_⟩
  rw [hspec]
  refine hr.put hw t2 ?_ ?_ ?_ ?_
  · have : (h :: zs).Perm (n :: h :: xs) := (List.Perm.cons h t3).trans (List.Perm.swap _ _ _)
    rw [this.nodup_iff, List.nodup_cons]
    exact ⟨hnx, hnd⟩
  · intro y h1 h2
    exact t4 y h1 fun e => h2 ((hmem y).2 (.inl e))
  · intro y hy
    rcases (hmem y).1 hy with rfl | h1
    · exact .inr hn
    · exact .inl h1
  · intro y h1 h2
    exact absurd ((hmem y).2 (.inr h1)) h2

private theorem remove_ok {σ : Heap} {W : World} (hr : Rel σ W) {n : Nat} (hn : ∃ h xs, W h = some xs ∧ n ∈ xs) :
    ∃ τ, remove σ n = some τ ∧ Rel τ (spec W (.remove n)) := by
  obtain ⟨h, xs, hw, hm⟩ := hn
  have hring := hr.ring h xs hw
  have hnd := hr.nodup h xs hw
  obtain ⟨A, B, rfl⟩ := List.append_of_mem hm
  have nd' := List.nodup_cons.1 hnd
  have hA : n ∉ A := fun h1 => (List.nodup_append.1 nd'.2).2.2 n h1 n (by simp) rfl
  have hB : n ∉ B := (List.nodup_cons.1 (List.nodup_append.1 nd'.2).2.1).1
  have hhn : h ≠ n := fun e => nd'.1 (by simp [e])
  have filt : ∀ ys : List Nat, n ∉ ys → ys.filter (· ≠ n) = ys := by
    intro ys hy
    rw [List.filter_eq_self]
    intro a ha
    simp only [ne_eq, decide_not, Bool.not_eq_eq_eq_not, Bool.not_true, decide_eq_false_iff_not]
    exact fun e => hy (e ▸ ha)
  have hspec : spec W (.remove n) = put W h (A ++ B) := by
    funext k
    simp only [spec, put]
    by_cases e : k = h
    · rw [if_pos e, e, hw, Option.map_some, List.filter_append, List.filter_cons_of_neg (by simp), filt A hA, filt B hB]
    · rw [if_neg e]
      refine map_get _ _ fun ys hk => filt ys fun h1 => ?_
      exact hr.disj h k _ ys hw hk (Ne.symm e) n (by simp) (by simp [h1])
  have hperm : (n :: (B ++ h :: A)).Perm (h :: (A ++ n :: B)) := by
    show ((n :: B) ++ (h :: A)).Perm ((h :: A) ++ (n :: B))
    exact List.perm_append_comm
  have hrot : Ring σ (n :: (B ++ h :: A)) := by
    have : Ring σ ((h :: A) ++ (n :: B)) := hring
    exact this.rotate
  obtain ⟨y, ys, hy⟩ : ∃ y ys, B ++ h :: A = y :: ys := by
    cases B with
    | nil => exact ⟨h, A, rfl⟩
    | cons b B => exact ⟨b, B ++ h :: A, rfl⟩
  rw [hy] at hrot hperm
  obtain ⟨τ, t1, t2, t3, t4, t5⟩ := remove_ring hrot (hperm.nodup_iff.2 hnd)
  refine ⟨τ, t1, ?_⟩
  rw [hspec]
  have hmem : ∀ z, z ∈ h :: (A ++ n :: B) ↔ z = n ∨ z ∈ h :: (A ++ B) := by
    intro z
    simp only [List.mem_cons, List.mem_append]
    constructor
    · rintro (h | h | h | h) <;> simp [h]
    · rintro (h | h | h | h) <;> simp [h]
  refine hr.put hw ?_ ?_ ?_ ?_ ?_
  · rw [← hy] at t2
    exact t2.rotate
  · have : (h :: (A ++ n :: B)).Perm (n :: h :: (A ++ B)) :=
      (List.Perm.cons h List.perm_middle).trans (List.Perm.swap _ _ _)
    exact (List.nodup_cons.1 (this.nodup_iff.1 hnd)).2
  · intro z h1 _
    exact t5 z (by rw [hperm.mem_iff]; exact h1)
  · intro z hz
    exact .inl ((hmem z).2 (.inr hz))
  · intro z h1 h2
    rcases (hmem z).1 h1 with rfl | h3
    · exact ⟨t3, t4⟩
    · exact absurd h3 h2

private theorem merge_ok {σ : Heap} {W : World} (hr : Rel σ W) {h1 h2 : Nat} (hne : h1 ≠ h2)
    (hs1 : (W h1).isSome) (hs2 : (W h2).isSome) : ∃ τ, merge σ h1 h2 = some τ ∧ Rel τ (spec W (.merge h1 h2)) := by
  obtain ⟨xs, w1⟩ := Option.isSome_iff_exists.1 hs1
  obtain ⟨ys, w2⟩ := Option.isSome_iff_exists.1 hs2
  have n1 := hr.nodup _ _ w1
  have n2 := hr.nodup _ _ w2
  have hnd : ((h1 :: xs) ++ (h2 :: ys)).Nodup := by
    rw [List.nodup_append]
    exact ⟨n1, n2, fun a ha b hb e => hr.disj h1 h2 xs ys w1 w2 hne a ha (e ▸ hb)⟩
  obtain ⟨τ, t1, t2, t3, t4⟩ := merge_ring (hr.ring _ _ w1) (hr.ring _ _ w2) hnd
  refine ⟨τ, t1, ?_⟩
  have W1 : spec W (.merge h1 h2) h1 = some (ys ++ xs) := by simp [spec, w1, w2]
  have W2 : spec W (.merge h1 h2) h2 = some [] := by simp [spec, Ne.symm hne]
  have W3 : ∀ k, k ≠ h1 → k ≠ h2 → spec W (.merge h1 h2) k = W k := by
    intro k e1 e2; simp [spec, e1, e2]
  have away : ∀ k zs, W k = some zs → k ≠ h1 → k ≠ h2 → ∀ a ∈ k :: zs, a ∉ h1 :: xs ∧ a ∉ h2 :: ys :=
    fun k zs hk e1 e2 a ha => ⟨hr.disj k h1 _ _ hk w1 e1 a ha, hr.disj k h2 _ _ hk w2 e2 a ha⟩
  have m12 : ∀ a, a ∈ h1 :: (ys ++ xs) → a ∈ h1 :: xs ∨ a ∈ ys := by
    intro a; simp only [List.mem_cons, List.mem_append]
    rintro (h | h | h) <;> simp [h]
  obtain ⟨d1, d2, d3⟩ := List.nodup_append.1 hnd
  refine ⟨?_, ?_, ?_, ?_⟩
  · intro k zs hk
    by_cases e1 : k = h1
    · subst e1; rw [W1] at hk; cases hk; exact t2
    by_cases e2 : k = h2
    · subst e2; rw [W2] at hk; cases hk; exact t3
    rw [W3 k e1 e2] at hk
    exact (hr.ring k zs hk).frame fun y hy => t4 y (away k zs hk e1 e2 y hy).1 (away k zs hk e1 e2 y hy).2
  · intro k zs hk
    by_cases e1 : k = h1
    · subst e1; rw [W1] at hk; cases hk
      have hp : (k :: (ys ++ xs)).Perm ((k :: xs) ++ ys) := List.Perm.cons k List.perm_append_comm
      rw [hp.nodup_iff, List.nodup_append]
      exact ⟨d1, (List.nodup_cons.1 d2).2, fun a ha b hb => d3 a ha b (List.mem_cons_of_mem _ hb)⟩
    by_cases e2 : k = h2
    · subst e2; rw [W2] at hk; cases hk; simp
    rw [W3 k e1 e2] at hk
    exact hr.nodup k zs hk
  · have key : ∀ k l zs zs', spec W (.merge h1 h2) k = some zs → spec W (.merge h1 h2) l = some zs' → k ≠ l →
        k = h1 ∨ (k = h2 ∧ l ≠ h1) ∨ (k ≠ h1 ∧ k ≠ h2 ∧ l ≠ h1 ∧ l ≠ h2) → ∀ a ∈ k :: zs, a ∉ l :: zs' := by
      intro k l zs zs' hk hl hkl hc a ha ha'
      rcases hc with e | ⟨e, e'⟩ | ⟨e1, e2, e3, e4⟩
      · subst e
        rw [W1] at hk; cases hk
        by_cases e2 : l = h2
        · subst e2; rw [W2] at hl; cases hl
          simp only [List.mem_singleton] at ha'
          subst ha'
          rcases m12 a ha with h | h
          · exact d3 a h a (by simp) rfl
          · exact (List.nodup_cons.1 d2).1 h
        · rw [W3 l (Ne.symm hkl) e2] at hl
          have := away l _ hl (Ne.symm hkl) e2 a ha'
          rcases m12 a ha with h | h
          · exact this.1 h
          · exact this.2 (List.mem_cons_of_mem _ h)
      · subst e
        rw [W2] at hk; cases hk
        simp only [List.mem_singleton] at ha
        subst ha
        rw [W3 l e' (Ne.symm hkl)] at hl
        exact (away l _ hl e' (Ne.symm hkl) a ha').2 (by simp)
      · rw [W3 k e1 e2] at hk
        rw [W3 l e3 e4] at hl
        exact hr.disj k l _ _ hk hl hkl a ha ha'
    intro k l zs zs' hk hl hkl a ha ha'
    by_cases c : k = h1 ∨ (k = h2 ∧ l ≠ h1) ∨ (k ≠ h1 ∧ k ≠ h2 ∧ l ≠ h1 ∧ l ≠ h2)
    · exact key k l zs zs' hk hl hkl c a ha ha'
    · refine key l k zs' zs hl hk (Ne.symm hkl) ?_ a ha' ha
      by_cases c1 : l = h1
      · exact .inl c1
      · by_cases c2 : l = h2
        · exact .inr (.inl ⟨c2, fun e => c (.inl e)⟩)
        · refine absurd ?_ c
          by_cases c3 : k = h1
          · exact .inl c3
          · by_cases c4 : k = h2
            · exact .inr (.inl ⟨c4, c1⟩)
            · exact .inr (.inr ⟨c3, c4, c1, c2⟩)
  · intro n hn
    have a1 : n ∉ h1 :: xs := by
      intro hm
      refine hn (used_iff.2 ⟨h1, _, W1, ?_⟩)
      simp only [List.mem_cons, List.mem_append] at hm ⊢
      rcases hm with h | h <;> simp [h]
    have a2 : n ∉ h2 :: ys := by
      intro hm
      rcases List.mem_cons.1 hm with h | h
      · exact hn (used_iff.2 ⟨h2, _, W2, by simp [h]⟩)
      · exact hn (used_iff.2 ⟨h1, _, W1, by simp [h]⟩)
    obtain ⟨b1, b2⟩ := t4 n a1 a2
    rw [b1, b2]
    refine hr.free n fun hu => ?_
    obtain ⟨k, zs, hk, hm⟩ := used_iff.1 hu
    by_cases e1 : k = h1
    · subst e1; rw [w1] at hk; cases hk; exact a1 hm
    by_cases e2 : k = h2
    · subst e2; rw [w2] at hk; cases hk; exact a2 hm
    exact hn (used_iff.2 ⟨k, zs, by rw [W3 k e1 e2]; exact hk, hm⟩)

private theorem headInit_ok {σ : Heap} {W : World} (hr : Rel σ W) {n : Nat} (hn : ¬ Used W n) :
    Rel (headInit σ n) (spec W (.headInit n)) := by
  have nu : ∀ k zs, W k = some zs → n ∉ k :: zs := fun k zs hk hm => hn (used_iff.2 ⟨k, zs, hk, hm⟩)
  have W1 : spec W (.headInit n) n = some [] := by simp [spec]
  have W3 : ∀ k, k ≠ n → spec W (.headInit n) k = W k := fun k e => by simp [spec, e]
  have same : ∀ y, y ≠ n → (headInit σ n).next y = σ.next y ∧ (headInit σ n).prev y = σ.prev y := by
    intro y hy; simp [headInit, Heap.setNext, Heap.setPrev, upd, hy]
  refine ⟨?_, ?_, ?_, ?_⟩
  · intro k zs hk
    by_cases e : k = n
    · subst e; rw [W1] at hk; cases hk
      exact ⟨by simp [headInit, Heap.setNext, Heap.setPrev, upd], by simp [headInit, Heap.setNext, Heap.setPrev, upd]⟩
    · rw [W3 k e] at hk
      exact (hr.ring k zs hk).frame fun y hy => same y fun e => nu k zs hk (e ▸ hy)
  · intro k zs hk
    by_cases e : k = n
    · subst e; rw [W1] at hk; cases hk; simp
    · rw [W3 k e] at hk; exact hr.nodup k zs hk
  · intro k l zs zs' hk hl hkl a ha ha'
    by_cases e : k = n
    · subst e; rw [W1] at hk; cases hk
      rw [W3 l (Ne.symm hkl)] at hl
      simp only [List.mem_singleton] at ha
      subst ha
      exact nu l _ hl ha'
    · rw [W3 k e] at hk
      by_cases e' : l = n
      · subst e'; rw [W1] at hl; cases hl
        simp only [List.mem_singleton] at ha'
        subst ha'
        exact nu k _ hk ha
      · rw [W3 l e'] at hl
        exact hr.disj k l _ _ hk hl hkl a ha ha'
  · intro m hm
    have hmn : m ≠ n := fun e => hm (used_iff.2 ⟨n, [], W1, by simp [e]⟩)
    obtain ⟨b1, b2⟩ := same m hmn
    rw [b1, b2]
    refine hr.free m fun hu => ?_
    obtain ⟨k, zs, hk, hz⟩ := used_iff.1 hu
    have : k ≠ n := fun e => nu k zs hk (by simp [e])
    exact hm (used_iff.2 ⟨k, zs, by rw [W3 k this]; exact hk, hz⟩)

private theorem step_ok {σ : Heap} {W : World} (hr : Rel σ W) (o : Op) (ho : o.Ok W) :
    ∃ τ, step σ o = some τ ∧ Rel τ (spec W o) := by
  cases o with
  | headInit n => exact ⟨_, rfl, headInit_ok hr ho⟩
  | addAfter p n => exact addAfter_ok hr ho.1 ho.2
  | addBefore p n => exact addBefore_ok hr ho.1 ho.2
  | remove n => exact remove_ok hr ho
  | merge h1 h2 => exact merge_ok hr ho.1 ho.2.1 ho.2.2

private theorem run_ok (os : List Op) : ∀ {σ : Heap} {W : World}, Rel σ W → AllOk W os →
    ∃ τ, run σ os = some τ ∧ Rel τ (os.foldl spec W) := by
  induction os with
  | nil => intro σ W hr _; exact ⟨σ, rfl, hr⟩
  | cons o os ih =>
    intro σ W hr h
    obtain ⟨τ, t1, t2⟩ := step_ok hr o h.1
    obtain ⟨τ', t3, t4⟩ := ih t2 h.2
    exact ⟨τ', by simp [run, t1, t3], t4⟩

private theorem walk_next {σ : Heap} {h : Nat} : ∀ (xs : List Nat) (a : Nat), Path σ a xs h → h ∉ xs →
    ∀ fuel, xs.length < fuel → walk σ.next h fuel a = some xs
  | [], a, hp, _, fuel + 1, _ => by simp [walk, hp.1]
  | x :: xs, a, hp, hn, fuel + 1, hf => by
    simp only [List.mem_cons, not_or] at hn
    have := walk_next xs x hp.2.2 hn.2 fuel (by simp at hf; omega)
    simp [walk, hp.1, Ne.symm hn.1, this]

/-- the empty world: no lists yet -/
def nothing : World := fun _ => none

private theorem fresh_rel : Rel fresh nothing :=
  ⟨by simp [nothing], by simp [nothing], by simp [nothing], fun _ _ => ⟨rfl, rfl⟩⟩

/-- C30: however the list operations are called (properly), they never dereference `NULL`; afterwards the forward
traversal of every list visits the elements the specification says, the backward traversal the same in opposite order,
no element is on two lists, and `list_node_on_list` and `list_is_empty` answer correctly -/
theorem C30_refines (os : List Op) (h : AllOk nothing os) :
    ∃ σ, run fresh os = some σ ∧
      (∀ hd xs, os.foldl spec nothing hd = some xs →
        (∀ fuel, xs.length < fuel → walk σ.next hd fuel hd = some xs ∧ walk σ.prev hd fuel hd = some xs.reverse) ∧
        (hd :: xs).Nodup ∧ (isEmpty σ hd = true ↔ xs = [])) ∧
      (∀ h1 h2 xs ys, os.foldl spec nothing h1 = some xs → os.foldl spec nothing h2 = some ys → h1 ≠ h2 →
        ∀ a ∈ h1 :: xs, a ∉ h2 :: ys) ∧
      (∀ n, onList σ n = true ↔ Used (os.foldl spec nothing) n) := by
  obtain ⟨σ, h1, hr⟩ := run_ok os fresh_rel h
  refine ⟨σ, h1, ?_, hr.disj, ?_⟩
  · intro hd xs hw
    have hp := hr.ring hd xs hw
    have hn := hr.nodup hd xs hw
    refine ⟨fun fuel hf => ⟨walk_next xs hd hp (List.nodup_cons.1 hn).1 fuel hf, ?_⟩, hn, isEmpty_ring hp hn⟩
    exact walk_next (σ := dual σ) xs.reverse hd hp.dual (by simpa using (List.nodup_cons.1 hn).1) fuel (by simpa using hf)
  · intro n
    constructor
    · intro hon
      refine Classical.byContradiction fun hu => ?_
      obtain ⟨e1, e2⟩ := hr.free n hu
      simp [onList, e1, e2] at hon
    · intro hu
      obtain ⟨hd, xs, hw, hm⟩ := used_iff.1 hu
      obtain ⟨⟨b, _, hb⟩, _⟩ := (hr.ring hd xs hw).links hm
      simp [onList, hb]

/-- C30: removing an element that is on no list (for instance a second time) dereferences `NULL` -/
theorem C30_remove_twice (os : List Op) (h : AllOk nothing os) (n : Nat) (hn : ¬ Used (os.foldl spec nothing) n) :
    (run fresh os).bind (fun σ => step σ (.remove n)) = none := by
  obtain ⟨σ, h1, hr⟩ := run_ok os fresh_rel h
  rw [h1]
  simp [step, remove, (hr.free n hn).1]

/-- C30, remark: the comment in list.h says that `list_merge` appends; it prepends -/
theorem C30_merge_prepends :
    ∃ os σ, AllOk nothing os ∧ run fresh (os ++ [.merge 0 1]) = some σ ∧
      os.foldl spec nothing 0 = some [2] ∧ os.foldl spec nothing 1 = some [3] ∧
      walk σ.next 0 3 0 = some [3, 2] := by
  refine ⟨[.headInit 0, .headInit 1, .addAfter 0 2, .addAfter 1 3], _, ?_, rfl, by decide, by decide, by decide⟩
  refine ⟨?_, ?_, ⟨⟨0, [], by decide, by decide⟩, ?_⟩, ⟨⟨1, [], by decide, by decide⟩, ?_⟩, trivial⟩
  · rintro ⟨h, xs, hw, hm⟩
    cases hw
  · rintro ⟨h, xs, hw, hm⟩
    simp only [spec, nothing] at hw
    split at hw
    · cases hw; simp at hm; omega
    · cases hw
  · rintro ⟨h, xs, hw, hm⟩
    simp only [spec, nothing] at hw
    split at hw
    · cases hw; simp at hm; omega
    · split at hw
      · cases hw; simp at hm; omega
      · cases hw
  · rintro ⟨h, xs, hw, hm⟩
    simp only [spec, nothing] at hw
    split at hw
    · rename_i h1
      subst h1
      simp at hw
      subst hw
      simp at hm
    · split at hw
      · rename_i h2
        subst h2
        simp at hw
        subst hw
        simp at hm
      · cases hw

example : ([.headInit 0, .addAfter 0 5, .addBefore 0 6, .addBefore 6 7, .addAfter 5 8, .remove 7].foldl spec nothing) 0 =
    some [5, 8, 6] := by decide

end Verif.LList
