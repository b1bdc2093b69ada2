import Verif.SwitchModel

/-!
# C151: the host switch and the quality of its links
-/

namespace Verif.Switch

/-- A state that a sequence of operations leads to. -/
def Reach (s : Sw) : Prop := ∃ os, run init os = s

/-- The quality that is set for a direction; without an entry everything passes. -/
def quality (s : Sw) (a b : Nat) : Nat := (getLink (s.links a) b).getD 100

private def Keys (l : List (Nat × Nat)) : Prop := (l.map Prod.fst).Nodup

private theorem get_none {l : List (Nat × Nat)} {d : Nat} (h : d ∉ l.map Prod.fst) : getLink l d = none := by
  induction l with
  | nil => rfl
  | cons x l ih =>
    obtain ⟨a, q⟩ := x
    simp only [List.map_cons, List.mem_cons, not_or] at h
    unfold getLink
    rw [if_neg (fun e => h.1 e.symm)]
    exact ih h.2

private theorem get_mem {l : List (Nat × Nat)} {d : Nat} (h : getLink l d = none) : d ∉ l.map Prod.fst := by
  induction l with
  | nil => simp
  | cons x l ih =>
    obtain ⟨a, q⟩ := x
    unfold getLink at h
    split at h
    · cases h
    · next hn =>
      simp only [List.map_cons, List.mem_cons, not_or]
      exact ⟨fun e => hn e.symm, ih h⟩

private theorem remove_sub (l : List (Nat × Nat)) (d : Nat) : ((removeLink l d).map Prod.fst).Sublist (l.map Prod.fst) := by
  induction l with
  | nil => exact List.Sublist.refl _
  | cons x l ih =>
    obtain ⟨a, q⟩ := x
    unfold removeLink
    split
    · exact List.sublist_cons_self _ _
    · exact ih.cons_cons a

private theorem remove_get {l : List (Nat × Nat)} (d e : Nat) (h : Keys l) :
    getLink (removeLink l d) e = if e = d then none else getLink l e := by
  induction l with
  | nil => unfold removeLink getLink; split <;> rfl
  | cons x l ih =>
    obtain ⟨a, q⟩ := x
    unfold Keys at h
    simp only [List.map_cons, List.nodup_cons] at h
    unfold removeLink
    by_cases c : a = d
    · rw [if_pos c]
      by_cases c2 : e = d
      · rw [if_pos c2, c2]; subst c; exact get_none h.1
      · rw [if_neg c2]
        show _ = if a = e then some q else getLink l e
        rw [if_neg (fun (x : a = e) => c2 (x.symm.trans c))]
    · rw [if_neg c]
      show (if a = e then some q else getLink (removeLink l d) e) = if e = d then none else if a = e then some q else getLink l e
      rw [ih h.2]
      by_cases c2 : a = e
      · rw [if_pos c2, if_neg (fun x => c (c2.trans x)), if_pos c2]
      · rw [if_neg c2, if_neg c2]

private theorem change_keys (l : List (Nat × Nat)) (d v : Nat) : (changeLink l d v).map Prod.fst = l.map Prod.fst := by
  induction l with
  | nil => rfl
  | cons x l ih =>
    obtain ⟨a, q⟩ := x
    unfold changeLink
    split
    · rfl
    · simp only [List.map_cons, ih]

private theorem change_get {l : List (Nat × Nat)} (d e v : Nat) (hd : getLink l d ≠ none) :
    getLink (changeLink l d v) e = if e = d then some v else getLink l e := by
  induction l with
  | nil => exact absurd rfl hd
  | cons x l ih =>
    obtain ⟨a, q⟩ := x
    unfold changeLink
    by_cases c : a = d
    · rw [if_pos c]
      show (if a = e then some v else getLink l e) = if e = d then some v else if a = e then some q else getLink l e
      by_cases c2 : a = e
      · rw [if_pos c2, if_pos (c2 ▸ c)]
      · rw [if_neg c2, if_neg c2, if_neg (fun x => c2 (c.trans x.symm))]
    · rw [if_neg c]
      show (if a = e then some q else getLink (changeLink l d v) e) = if e = d then some v else if a = e then some q else getLink l e
      have hd' : getLink l d ≠ none := by
        intro hx; apply hd; unfold getLink; rw [if_neg c]; exact hx
      rw [ih hd']
      by_cases c2 : a = e
      · rw [if_pos c2, if_neg (fun x => c (c2.trans x)), if_pos c2]
      · rw [if_neg c2, if_neg c2]

private theorem one_keys {l : List (Nat × Nat)} (d q : Nat) (h : Keys l) : Keys (setOne l d q) := by
  unfold setOne
  split
  · split
    · exact (remove_sub l d).nodup h
    · unfold Keys; rw [change_keys]; exact h
  · next hn =>
    split
    · exact h
    · unfold Keys
      simp only [List.map_cons, List.nodup_cons]
      exact ⟨get_mem hn, h⟩

private theorem one_get {l : List (Nat × Nat)} (d q e : Nat) (h : Keys l) :
    (getLink (setOne l d q) e).getD 100 = if e = d then q else (getLink l e).getD 100 := by
  unfold setOne
  split
  · next v hv =>
    split
    · next hq =>
      rw [remove_get d e h]
      by_cases c : e = d
      · rw [if_pos c, if_pos c]; exact hq.symm
      · rw [if_neg c, if_neg c]
    · rw [change_get d e q (by rw [hv]; simp)]
      by_cases c : e = d
      · rw [if_pos c, if_pos c]; rfl
      · rw [if_neg c, if_neg c]
  · next hn =>
    split
    · next hq =>
      by_cases c : e = d
      · rw [if_pos c, c, hn]; exact hq.symm
      · rw [if_neg c]
    · show (if d = e then some q else getLink l e).getD 100 = _
      by_cases c : e = d
      · rw [if_pos c.symm, if_pos c]; rfl
      · rw [if_neg (fun x => c x.symm), if_neg c]

private theorem one_small {l : List (Nat × Nat)} (d q : Nat) (hk : Keys l) (h : ∀ e, getLink l e ≠ some 100) (e : Nat) :
    getLink (setOne l d q) e ≠ some 100 := by
  unfold setOne
  split
  · next v hv =>
    split
    · rw [remove_get d e hk]; split
      · simp
      · exact h e
    · next hq =>
      rw [change_get d e q (by rw [hv]; simp)]; split
      · simpa using hq
      · exact h e
  · split
    · exact h e
    · next hq =>
      unfold getLink; split
      · simpa using hq
      · exact h e

private structure Inv (s : Sw) : Prop where
  small : ∀ a e, getLink (s.links a) e ≠ some 100
  keys : ∀ a, Keys (s.links a)
  nodes : s.nodes.Nodup
  self : ∀ a, getLink (s.links a) a = none
  gone : ∀ a, a ∉ s.nodes → s.links a = []

private theorem self_of {l : List (Nat × Nat)} {a d q : Nat} (hne : d ≠ a) (h : getLink l a = none) (hk : Keys l) :
    getLink (setOne l d q) a = none := by
  unfold setOne
  split
  · next v hv =>
    split
    · rw [remove_get d a hk, if_neg hne.symm]; exact h
    · rw [change_get d a q (by rw [hv]; simp), if_neg hne.symm]; exact h
  · split
    · exact h
    · unfold getLink; rw [if_neg hne]; exact h

private theorem put_links (s : Sw) (a b : Nat) (l : List (Nat × Nat)) : (put s a l).links b = if b = a then l else s.links b := rfl

private theorem put_inv {s : Sw} (h : Inv s) {a d q : Nat} (ha : a ∈ s.nodes) (hne : d ≠ a) : Inv (put s a (setOne (s.links a) d q)) := by
  refine ⟨fun b e => ?_, fun b => ?_, h.nodes, fun b => ?_, fun b hb => ?_⟩
  · rw [put_links]; split
    · exact one_small d q (h.keys a) (h.small a) e
    · exact h.small b e
  · rw [put_links]; split
    · exact one_keys d q (h.keys a)
    · exact h.keys b
  · rw [put_links]
    by_cases e : b = a
    · rw [if_pos e, e]; exact self_of hne (h.self a) (h.keys a)
    · rw [if_neg e]; exact h.self b
  · rw [put_links, if_neg (fun (e : b = a) => hb (show b ∈ s.nodes by rw [e]; exact ha))]; exact h.gone b hb

private theorem put_quality {s : Sw} (h : Inv s) (a d q x y : Nat) :
    quality (put s a (setOne (s.links a) d q)) x y = if x = a ∧ y = d then q else quality s x y := by
  unfold quality
  rw [put_links]
  by_cases e : x = a
  · rw [if_pos e, one_get d q y (h.keys a)]
    by_cases e2 : y = d
    · rw [if_pos e2, if_pos ⟨e, e2⟩]
    · rw [if_neg e2, if_neg (fun c => e2 c.2), e]
  · rw [if_neg e, if_neg (fun c => e c.1)]

private theorem pair_ok {s : Sw} (h : Inv s) (bi : Bool) (q : Nat) {a d : Nat} (ha : a ∈ s.nodes) (hd : d ∈ s.nodes) :
    Inv (pair bi q s a d) ∧ (pair bi q s a d).nodes = s.nodes ∧
      ∀ x y, quality (pair bi q s a d) x y =
        if a ≠ d ∧ ((x = a ∧ y = d) ∨ (bi = true ∧ x = d ∧ y = a)) then q else quality s x y := by
  unfold pair
  by_cases hne : a ≠ d
  · rw [if_pos hne]
    have h1 := put_inv (q := q) h ha (Ne.symm hne)
    by_cases hb : bi = true
    · rw [if_pos hb]
      have hl : s.links d = (put s a (setOne (s.links a) d q)).links d := by
        rw [put_links, if_neg (Ne.symm hne)]
      rw [hl]
      have h2 := put_inv (q := q) (d := a) h1 (show d ∈ s.nodes from hd) hne
      refine ⟨h2, rfl, fun x y => ?_⟩
      rw [put_quality h1 d a q x y, put_quality h a d q x y]
      by_cases c1 : x = d ∧ y = a
      · rw [if_pos c1, if_pos ⟨hne, Or.inr ⟨hb, c1⟩⟩]
      · rw [if_neg c1]
        by_cases c2 : x = a ∧ y = d
        · rw [if_pos c2, if_pos ⟨hne, Or.inl c2⟩]
        · rw [if_neg c2, if_neg]
          rintro ⟨_, c | c⟩
          · exact c2 c
          · exact c1 c.2
    · rw [if_neg hb]
      refine ⟨h1, rfl, fun x y => ?_⟩
      rw [put_quality h a d q x y]
      by_cases c2 : x = a ∧ y = d
      · rw [if_pos c2, if_pos ⟨hne, Or.inl c2⟩]
      · rw [if_neg c2, if_neg]
        rintro ⟨_, c | c⟩
        · exact c2 c
        · exact hb c.1
  · rw [if_neg hne]
    exact ⟨h, rfl, fun x y => by rw [if_neg (fun c => hne c.1)]⟩

private theorem inner_ok (bi : Bool) (q a : Nat) (ds : List Nat) {s : Sw} (h : Inv s) (ha : a ∈ s.nodes) (hds : ∀ d ∈ ds, d ∈ s.nodes) :
    Inv (ds.foldl (fun t b => pair bi q t a b) s) ∧ (ds.foldl (fun t b => pair bi q t a b) s).nodes = s.nodes ∧
      ∀ x y, quality (ds.foldl (fun t b => pair bi q t a b) s) x y =
        if x ≠ y ∧ ((x = a ∧ y ∈ ds) ∨ (bi = true ∧ x ∈ ds ∧ y = a)) then q else quality s x y := by
  induction ds generalizing s with
  | nil => exact ⟨h, rfl, fun x y => by rw [if_neg (by simp)]; rfl⟩
  | cons d ds ih =>
    obtain ⟨h1, hn, hq⟩ := pair_ok h bi q ha (hds d (by simp))
    obtain ⟨h2, hn2, hq2⟩ := ih h1 (by rw [hn]; exact ha) (fun e he => by rw [hn]; exact hds e (by simp [he]))
    refine ⟨h2, by rw [List.foldl_cons, hn2, hn], fun x y => ?_⟩
    rw [List.foldl_cons, hq2, hq]
    by_cases c : x ≠ y ∧ ((x = a ∧ y ∈ ds) ∨ (bi = true ∧ x ∈ ds ∧ y = a))
    · rw [if_pos c, if_pos]
      refine ⟨c.1, ?_⟩
      rcases c.2 with c | c
      · exact Or.inl ⟨c.1, by simp [c.2]⟩
      · exact Or.inr ⟨c.1, by simp [c.2.1], c.2.2⟩
    · rw [if_neg c]
      by_cases c2 : a ≠ d ∧ ((x = a ∧ y = d) ∨ (bi = true ∧ x = d ∧ y = a))
      · rw [if_pos c2, if_pos]
        rcases c2.2 with ⟨e1, e2⟩ | ⟨e0, e1, e2⟩
        · exact ⟨by rw [e1, e2]; exact c2.1, Or.inl ⟨e1, by simp [e2]⟩⟩
        · exact ⟨by rw [e1, e2]; exact Ne.symm c2.1, Or.inr ⟨e0, by simp [e1], e2⟩⟩
      · rw [if_neg c2, if_neg]
        rintro ⟨hxy, ⟨e1, e2⟩ | ⟨e0, e1, e2⟩⟩
        · rcases List.mem_cons.mp e2 with e2 | e2
          · exact c2 ⟨by rw [← e1, ← e2]; exact hxy, Or.inl ⟨e1, e2⟩⟩
          · exact c ⟨hxy, Or.inl ⟨e1, e2⟩⟩
        · rcases List.mem_cons.mp e1 with e1 | e1
          · exact c2 ⟨by rw [← e1, ← e2]; exact Ne.symm hxy, Or.inr ⟨e0, e1, e2⟩⟩
          · exact c ⟨hxy, Or.inr ⟨e0, e1, e2⟩⟩

private theorem outer_ok (bi : Bool) (q : Nat) (ss ds : List Nat) {s : Sw} (h : Inv s) (hss : ∀ a ∈ ss, a ∈ s.nodes)
    (hds : ∀ d ∈ ds, d ∈ s.nodes) :
    Inv (ss.foldl (fun t a => ds.foldl (fun t b => pair bi q t a b) t) s) ∧
      (ss.foldl (fun t a => ds.foldl (fun t b => pair bi q t a b) t) s).nodes = s.nodes ∧
      ∀ x y, quality (ss.foldl (fun t a => ds.foldl (fun t b => pair bi q t a b) t) s) x y =
        if x ≠ y ∧ ((x ∈ ss ∧ y ∈ ds) ∨ (bi = true ∧ x ∈ ds ∧ y ∈ ss)) then q else quality s x y := by
  induction ss generalizing s with
  | nil => exact ⟨h, rfl, fun x y => by rw [if_neg (by simp)]; rfl⟩
  | cons a ss ih =>
    obtain ⟨h1, hn, hq⟩ := inner_ok bi q a ds h (hss a (by simp)) hds
    obtain ⟨h2, hn2, hq2⟩ := ih h1 (fun e he => by rw [hn]; exact hss e (by simp [he])) (fun e he => by rw [hn]; exact hds e he)
    refine ⟨h2, by rw [List.foldl_cons, hn2, hn], fun x y => ?_⟩
    rw [List.foldl_cons, hq2, hq]
    by_cases c : x ≠ y ∧ ((x ∈ ss ∧ y ∈ ds) ∨ (bi = true ∧ x ∈ ds ∧ y ∈ ss))
    · rw [if_pos c, if_pos]
      refine ⟨c.1, ?_⟩
      rcases c.2 with c | c
      · exact Or.inl ⟨by simp [c.1], c.2⟩
      · exact Or.inr ⟨c.1, c.2.1, by simp [c.2.2]⟩
    · rw [if_neg c]
      by_cases c2 : x ≠ y ∧ ((x = a ∧ y ∈ ds) ∨ (bi = true ∧ x ∈ ds ∧ y = a))
      · rw [if_pos c2, if_pos]
        refine ⟨c2.1, ?_⟩
        rcases c2.2 with c | c
        · exact Or.inl ⟨by simp [c.1], c.2⟩
        · exact Or.inr ⟨c.1, c.2.1, by simp [c.2.2]⟩
      · rw [if_neg c2, if_neg]
        rintro ⟨hxy, ⟨e1, e2⟩ | ⟨e0, e1, e2⟩⟩
        · rcases List.mem_cons.mp e1 with e1 | e1
          · exact c2 ⟨hxy, Or.inl ⟨e1, e2⟩⟩
          · exact c ⟨hxy, Or.inl ⟨e1, e2⟩⟩
        · rcases List.mem_cons.mp e2 with e2 | e2
          · exact c2 ⟨hxy, Or.inr ⟨e0, e1, e2⟩⟩
          · exact c ⟨hxy, Or.inr ⟨e0, e1, e2⟩⟩

/-- The clients that a part of the command means. -/
def Means (s : Sw) : Option Nat → Nat → Prop
  | none, a => a ∈ s.nodes
  | some b, a => a = b

/-- The parts name clients that are there. -/
def Known (s : Sw) : Option Nat → Prop
  | none => True
  | some b => b ∈ s.nodes

private theorem choose_ok {s : Sw} {o : Option Nat} (h : Known s o) :
    ∃ l, choose s o = some l ∧ (∀ a ∈ l, a ∈ s.nodes) ∧ ∀ a, a ∈ l ↔ Means s o a := by
  cases o with
  | none => exact ⟨s.nodes, rfl, fun _ h => h, fun _ => Iff.rfl⟩
  | some b => exact ⟨[b], if_pos h, fun a ha => by rw [List.mem_singleton.mp ha]; exact h, fun a => List.mem_singleton⟩

private theorem choose_none {s : Sw} {o : Option Nat} (h : ¬ Known s o) : choose s o = none := by
  cases o with
  | none => exact absurd trivial h
  | some b => exact if_neg h

private theorem cmd_ok {s : Sw} (h : Inv s) (bi : Bool) (src dst : Option Nat) (q : Nat) (hs : Known s src) (hd : Known s dst)
    (hq : q ≤ 100) :
    Inv (cmdLink s bi src dst q) ∧ (cmdLink s bi src dst q).nodes = s.nodes ∧
      ∀ x y, (x ≠ y ∧ ((Means s src x ∧ Means s dst y) ∨ (bi = true ∧ Means s dst x ∧ Means s src y)) →
          quality (cmdLink s bi src dst q) x y = q) ∧
        (¬ (x ≠ y ∧ ((Means s src x ∧ Means s dst y) ∨ (bi = true ∧ Means s dst x ∧ Means s src y))) →
          quality (cmdLink s bi src dst q) x y = quality s x y) := by
  obtain ⟨ss, e1, m1, k1⟩ := choose_ok hs
  obtain ⟨ds, e2, m2, k2⟩ := choose_ok hd
  unfold cmdLink
  rw [e1, e2]
  simp only []
  rw [if_neg (by omega)]
  obtain ⟨a, b, c⟩ := outer_ok (if src = none ∧ dst = none then false else bi) q ss ds h m1 m2
  refine ⟨a, b, fun x y => ?_⟩
  rw [c x y]
  have key : (x ≠ y ∧ ((x ∈ ss ∧ y ∈ ds) ∨ ((if src = none ∧ dst = none then false else bi) = true ∧ x ∈ ds ∧ y ∈ ss))) ↔
      (x ≠ y ∧ ((Means s src x ∧ Means s dst y) ∨ (bi = true ∧ Means s dst x ∧ Means s src y))) := by
    rw [k1, k1, k2, k2]
    by_cases w : src = none ∧ dst = none
    · rw [if_pos w, w.1, w.2]
      constructor
      · rintro ⟨hxy, c | c⟩
        · exact ⟨hxy, Or.inl c⟩
        · exact absurd c.1 (by simp)
      · rintro ⟨hxy, c | c⟩
        · exact ⟨hxy, Or.inl c⟩
        · exact ⟨hxy, Or.inl ⟨c.2.1, c.2.2⟩⟩
    · rw [if_neg w]
  refine ⟨fun hx => if_pos (key.mpr hx), fun hx => if_neg (fun w => hx (key.mp w))⟩

private theorem cmd_refused (s : Sw) (bi : Bool) (src dst : Option Nat) (q : Nat) (h : ¬ Known s src ∨ ¬ Known s dst ∨ 100 < q) :
    cmdLink s bi src dst q = s := by
  unfold cmdLink
  split
  · next ss ds e1 e2 =>
    rcases h with h | h | h
    · rw [choose_none h] at e1; cases e1
    · rw [choose_none h] at e2; cases e2
    · rw [if_pos h]
  · rfl

private theorem inv_op {s : Sw} (h : Inv s) (o : Op) : Inv (op s o) := by
  cases o with
  | connect a =>
    show Inv (connect s a)
    unfold connect
    split
    · exact h
    · next hn =>
      refine ⟨fun b e => ?_, fun b => ?_, List.nodup_cons.mpr ⟨hn, h.nodes⟩, fun b => ?_, fun b hb => ?_⟩
      · simp only []; split
        · simp [getLink]
        · exact h.small b e
      · simp only []; split
        · exact List.nodup_nil
        · exact h.keys b
      · simp only []; split
        · rfl
        · exact h.self b
      · simp only [List.mem_cons, not_or] at hb ⊢
        rw [if_neg hb.1]; exact h.gone b hb.2
  | disconnect a =>
    show Inv (disconnect s a)
    unfold disconnect
    split
    · refine ⟨fun b e => ?_, fun b => ?_, h.nodes.erase a, fun b => ?_, fun b hb => ?_⟩
      · simp only []; split
        · simp [getLink]
        · exact h.small b e
      · simp only []; split
        · exact List.nodup_nil
        · exact h.keys b
      · simp only []; split
        · rfl
        · exact h.self b
      · simp only [] at hb ⊢
        split
        · rfl
        · next hne => exact h.gone b (fun hm => hb ((List.mem_erase_of_ne hne).mpr hm))
    · exact h
  | link bi src dst q =>
    show Inv (cmdLink s bi src dst q)
    by_cases hs : Known s src
    · by_cases hd : Known s dst
      · by_cases hq : q ≤ 100
        · exact (cmd_ok h bi src dst q hs hd hq).1
        · rw [cmd_refused s bi src dst q (Or.inr (Or.inr (by omega)))]; exact h
      · rw [cmd_refused s bi src dst q (Or.inr (Or.inl hd))]; exact h
    · rw [cmd_refused s bi src dst q (Or.inl hs)]; exact h

private theorem inv_reach {s : Sw} (h : Reach s) : Inv s := by
  obtain ⟨os, rfl⟩ := h
  have main : ∀ (os : List Op) (s : Sw), Inv s → Inv (run s os) := by
    intro os
    induction os with
    | nil => exact fun _ h => h
    | cons o os ih => exact fun s h => ih _ (inv_op h o)
  exact main os init ⟨fun _ _ => by simp [init, getLink], fun _ => List.nodup_nil, List.nodup_nil, fun _ => rfl, fun _ _ => rfl⟩

/-- The command sets the quality of exactly the directions that it names, with its wildcards and in both directions if it says
so; a command that names an unknown client or a quality above 100 changes nothing. -/
theorem C151_command (s : Sw) (h : Reach s) (bi : Bool) (src dst : Option Nat) (q : Nat) :
    (Known s src → Known s dst → q ≤ 100 →
      (cmdLink s bi src dst q).nodes = s.nodes ∧
      ∀ x y, (x ≠ y ∧ ((Means s src x ∧ Means s dst y) ∨ (bi = true ∧ Means s dst x ∧ Means s src y)) →
          quality (cmdLink s bi src dst q) x y = q) ∧
        (¬ (x ≠ y ∧ ((Means s src x ∧ Means s dst y) ∨ (bi = true ∧ Means s dst x ∧ Means s src y))) →
          quality (cmdLink s bi src dst q) x y = quality s x y)) ∧
    (¬ Known s src ∨ ¬ Known s dst ∨ 100 < q → cmdLink s bi src dst q = s) :=
  ⟨fun hs hd hq => (cmd_ok (inv_reach h) bi src dst q hs hd hq).2, cmd_refused s bi src dst q⟩

private def three : Sw := run init [.connect 1, .connect 2, .connect 3]

example : (quality (cmdLink three true (some 1) none 40) 1 3, quality (cmdLink three true (some 1) none 40) 2 1,
    quality (cmdLink three true (some 1) none 40) 2 3, quality (cmdLink three false (some 1) none 40) 2 1) = (40, 40, 100, 100) := by
  decide

/-- Who gets a packet: every other client once, if the quality of the direction is 100, or not 0 and the random number is at
least the quality. -/
theorem C151_route (s : Sw) (h : Reach s) (a : Nat) (roll : Nat → Nat) :
    (route s a roll).Nodup ∧
    ∀ d, d ∈ route s a roll ↔ d ∈ s.nodes ∧ d ≠ a ∧
      (quality s a d = 100 ∨ (0 < quality s a d ∧ quality s a d ≤ roll d)) := by
  refine ⟨List.Pairwise.filter _ (inv_reach h).nodes, fun d => ?_⟩
  unfold route
  rw [List.mem_filter, Bool.and_eq_true, decide_eq_true_eq]
  have hc : check (s.links a) d (roll d) = true ↔
      (quality s a d = 100 ∨ (0 < quality s a d ∧ quality s a d ≤ roll d)) := by
    have hsm := (inv_reach h).small a d
    unfold check quality
    revert hsm
    cases getLink (s.links a) d with
    | none => simp
    | some q =>
      intro hsm
      have hsm' : q ≠ 100 := by simpa using hsm
      simp only [Option.getD_some]
      by_cases c : q = 0
      · subst c; simp
      · rw [if_neg c]
        by_cases c2 : q > roll d
        · rw [if_pos c2]; simp; omega
        · rw [if_neg c2]; simp; omega
  rw [hc]
  constructor
  · rintro ⟨a1, a2, a3⟩; exact ⟨a1, Ne.symm a3, a2⟩
  · rintro ⟨a1, a2, a3⟩; exact ⟨a1, a3, Ne.symm a2⟩

example : route (cmdLink three false (some 1) (some 2) 0) 1 (fun _ => 100) = [3] := by decide

/-- In how many of the hundred cases of the random number a packet passes a link of a quality. -/
def chance (q : Nat) : Nat := ((List.range 100).filter (fun r => check (setOne [] 2 q) 2 (r + 1))).length

/-- The chance of a packet is the quality only if everything or nothing passes. -/
theorem C151_chance_partial : ∀ q, q ≤ 100 → (chance q = q ↔ q = 0 ∨ q = 100) := by
  have h : ∀ q ∈ List.range 101, (chance q = q ↔ q = 0 ∨ q = 100) := by decide +kernel
  intro q hq
  exact h q (List.mem_range.mpr (by omega))

/-- Otherwise it is turned round: the better the link the more is lost. -/
theorem C151_chance_negation : ∀ q, 0 < q → q < 100 → chance q = 101 - q := by
  have h : ∀ q ∈ List.range 100, 0 < q → chance q = 101 - q := by decide +kernel
  intro q h0 hq
  exact h q (List.mem_range.mpr hq) h0

example : chance 90 = 11 := by decide +kernel

/-- "To delete all links do: link * * 100": between the clients that are there everything passes afterwards. -/
theorem C151_all_partial (s : Sw) (h : Reach s) (bi : Bool) (x y : Nat) (hx : x ∈ s.nodes) (hy : y ∈ s.nodes) :
    quality (cmdLink s bi none none 100) x y = 100 := by
  by_cases e : x = y
  · have hi := (cmd_ok (inv_reach h) bi none none 100 trivial trivial (Nat.le_refl _)).1
    unfold quality
    rw [e, hi.self y]
    rfl
  · exact ((cmd_ok (inv_reach h) bi none none 100 trivial trivial (Nat.le_refl _)).2.2 x y).1 ⟨e, Or.inl ⟨hx, hy⟩⟩

/-- But links to a client that has left stay: when it comes back they are there again. -/
theorem C151_all_negation : ∃ s, Reach s ∧ 1 ∈ s.nodes ∧ 2 ∉ s.nodes ∧
    quality (connect (cmdLink s false none none 100) 2) 1 2 = 0 :=
  ⟨run init [.connect 1, .connect 2, .link false (some 1) (some 2) 0, .disconnect 2], ⟨_, rfl⟩, by decide, by decide, by decide⟩

/-- A client that connects has no links of its own; those of the others to it are the ones they had. -/
theorem C151_connect (s : Sw) (a : Nat) (ha : a ∉ s.nodes) :
    (∀ y, quality (connect s a) a y = 100) ∧ (∀ x y, x ≠ a → quality (connect s a) x y = quality s x y) ∧
    (connect s a).nodes = a :: s.nodes := by
  unfold connect
  rw [if_neg ha]
  refine ⟨fun y => ?_, fun x y hx => ?_, rfl⟩
  · unfold quality; simp only []; rw [if_pos trivial]; rfl
  · unfold quality; simp only []; rw [if_neg hx]

/-- A client that leaves takes its own links with it and no others; an address is connected once at most. -/
theorem C151_disconnect (s : Sw) (h : Reach s) (a : Nat) (ha : a ∈ s.nodes) :
    (∀ y, quality (disconnect s a) a y = 100) ∧ (∀ x y, x ≠ a → quality (disconnect s a) x y = quality s x y) ∧
    ∀ b, b ∈ (disconnect s a).nodes ↔ b ≠ a ∧ b ∈ s.nodes := by
  unfold disconnect
  rw [if_pos ha]
  refine ⟨fun y => ?_, fun x y hx => ?_, fun b => (inv_reach h).nodes.mem_erase_iff⟩
  · unfold quality; simp only []; rw [if_pos trivial]; rfl
  · unfold quality; simp only []; rw [if_neg hx]

example : quality (disconnect (cmdLink three true (some 1) (some 2) 30) 1) 2 1 = 30 ∧
    quality (disconnect (cmdLink three true (some 1) (some 2) 30) 1) 1 2 = 100 := by decide

end Verif.Switch
