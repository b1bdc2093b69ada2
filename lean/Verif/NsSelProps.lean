import Verif.NsSelModel
/-
Property C99: the DNS servers that are written to the resolver configuration.
-/

namespace Verif.NsSel

variable {α : Type}

/-- `better` compares by a key that is ordered: not both better than each other, and what is better
than something at least as good as `z` is better than `z`. -/
structure Order (better : α → α → Bool) : Prop where
  asymm : ∀ x y, better x y = true → better y x = false
  trans : ∀ x y z, better x y = false → better y z = false → better x z = false

/-- `l` is in order: no later element is better than an earlier one. -/
def Sorted (better : α → α → Bool) (l : List α) : Prop :=
  l.Pairwise fun x y => better y x = false

/-- `best` are the (at most) `n` best of `l`, the best one first. -/
def Best (better : α → α → Bool) (n : Nat) (l best : List α) : Prop :=
  ∃ rest, (best ++ rest).Perm l ∧ Sorted better best ∧
    (∀ x ∈ best, ∀ y ∈ rest, better y x = false) ∧ best.length = min n l.length

/-- The three elements that count, best first. -/
private def three (s : Arr α) : List α := s.r3.toList ++ s.r2.toList ++ s.r1.toList

/-- The array is filled from the end. -/
private def Filled (s : Arr α) : Prop :=
  (s.r3 = none → s.r2 = none) ∧ (s.r2 = none → s.r1 = none) ∧ (s.r1 = none → s.r0 = none)

private theorem not_better (better : α → α → Bool) (x y : α) (h : ¬ better x y = true) :
    better x y = false := by
  cases hb : better x y with
  | false => rfl
  | true => exact absurd hb h

/-- One insertion: the array stays filled and sorted, and the element that drops out is not better
than those that stay. -/
private theorem select_spec {better : α → α → Bool} (o : Order better) (s : Arr α) (x : α)
    (hf : Filled s) (hs : Sorted better (three s)) :
    ∃ s', select better { s with r0 := some x } = some s' ∧ Filled s' ∧ Sorted better (three s') ∧
      (three s' ++ s'.r0.toList).Perm (x :: three s) ∧
      (∀ y ∈ s'.r0.toList, ∀ z ∈ three s', better y z = false) ∧
      ((three s).length < 3 → s'.r0 = none) := by
  obtain ⟨f3, f2, f1⟩ := hf
  obtain ⟨r0, r1, r2, r3⟩ := s
  simp only [three] at f1 f2 f3 hs ⊢
  cases r3 with
  | none =>
    have e2 : r2 = none := f3 rfl
    subst e2
    have e1 : r1 = none := f2 rfl
    subst e1
    refine ⟨⟨none, none, none, some x⟩, rfl, ⟨fun _ => rfl, fun _ => rfl, fun _ => rfl⟩, ?_, ?_,
      fun y hy => (by cases hy), fun _ => rfl⟩
    · exact List.pairwise_singleton _ _
    · exact List.Perm.refl _
  | some d =>
    cases r2 with
    | none =>
      have e1 : r1 = none := f2 rfl
      subst e1
      by_cases h : better x d = true
      · refine ⟨⟨none, none, some d, some x⟩, by simp only [select, swap]; rw [if_pos h],
          ⟨fun h => (by cases h), fun h => (by cases h), fun _ => rfl⟩, ?_, ?_,
          fun y hy => (by cases hy), fun _ => rfl⟩
        · refine List.pairwise_cons.2 ⟨fun y hy => ?_, List.pairwise_singleton _ _⟩
          rcases List.mem_cons.1 hy with rfl | hy
          · exact o.asymm _ _ h
          · cases hy
        · exact List.Perm.refl _
      · have hb := not_better better x d h
        refine ⟨⟨none, none, some x, some d⟩, by simp only [select, swap]; rw [if_neg h],
          ⟨fun h => (by cases h), fun h => (by cases h), fun _ => rfl⟩, ?_, ?_,
          fun y hy => (by cases hy), fun _ => rfl⟩
        · refine List.pairwise_cons.2 ⟨fun y hy => ?_, List.pairwise_singleton _ _⟩
          rcases List.mem_cons.1 hy with rfl | hy
          · exact hb
          · cases hy
        · exact List.Perm.swap _ _ _
    | some c =>
      have hdc : better c d = false := (List.pairwise_cons.1 hs).1 c List.mem_cons_self
      cases r1 with
      | none =>
        by_cases h : better x c = true
        · by_cases h2 : better x d = true
          · refine ⟨⟨none, some c, some d, some x⟩, by
              simp only [select, swap]; rw [if_pos h]; simp only []; rw [if_pos h2],
              ⟨fun h => (by cases h), fun h => (by cases h), fun h => (by cases h)⟩, ?_, ?_,
              fun y hy => (by cases hy), fun _ => rfl⟩
            · refine List.pairwise_cons.2 ⟨fun y hy => ?_, hs⟩
              rcases List.mem_cons.1 hy with rfl | hy
              · exact o.asymm _ _ h2
              · rcases List.mem_cons.1 hy with rfl | hy
                · exact o.asymm _ _ h
                · cases hy
            · exact List.Perm.refl _
          · have hb := not_better better x d h2
            refine ⟨⟨none, some c, some x, some d⟩, by
              simp only [select, swap]; rw [if_pos h]; simp only []; rw [if_neg h2],
              ⟨fun h => (by cases h), fun h => (by cases h), fun h => (by cases h)⟩, ?_, ?_,
              fun y hy => (by cases hy), fun _ => rfl⟩
            · refine List.pairwise_cons.2 ⟨fun y hy => ?_, List.pairwise_cons.2 ⟨fun y hy => ?_,
                List.pairwise_singleton _ _⟩⟩
              · rcases List.mem_cons.1 hy with rfl | hy
                · exact hb
                · rcases List.mem_cons.1 hy with rfl | hy
                  · exact hdc
                  · cases hy
              · rcases List.mem_cons.1 hy with rfl | hy
                · exact o.asymm _ _ h
                · cases hy
            · exact List.Perm.swap _ _ _
        · have hb := not_better better x c h
          have hxd : better x d = false := o.trans _ _ _ hb hdc
          have hcd : (better c d) ≠ true := by rw [hdc]; decide
          refine ⟨⟨none, some x, some c, some d⟩, by
              simp only [select, swap]; rw [if_neg h]; simp only []; rw [if_neg hcd],
              ⟨fun h => (by cases h), fun h => (by cases h), fun h => (by cases h)⟩, ?_, ?_,
              fun y hy => (by cases hy), fun _ => rfl⟩
          · refine List.pairwise_cons.2 ⟨fun y hy => ?_, List.pairwise_cons.2 ⟨fun y hy => ?_,
                List.pairwise_singleton _ _⟩⟩
            · rcases List.mem_cons.1 hy with rfl | hy
              · exact hdc
              · rcases List.mem_cons.1 hy with rfl | hy
                · exact hxd
                · cases hy
            · rcases List.mem_cons.1 hy with rfl | hy
              · exact hb
              · cases hy
          · exact (List.Perm.cons d (List.Perm.swap x c [])).trans (List.Perm.swap x d [c])
      | some b =>
        have hdb : better b d = false :=
          (List.pairwise_cons.1 hs).1 b (List.mem_cons_of_mem _ List.mem_cons_self)
        have hcb : better b c = false :=
          (List.pairwise_cons.1 (List.pairwise_cons.1 hs).2).1 b List.mem_cons_self
        by_cases h0 : better x b = true
        · by_cases h : better x c = true
          · by_cases h2 : better x d = true
            · refine ⟨⟨some b, some c, some d, some x⟩, by
                simp only [select, swap]; rw [if_pos h0]; simp only []; rw [if_pos h]
                simp only []; rw [if_pos h2],
                ⟨fun h => (by cases h), fun h => (by cases h), fun h => (by cases h)⟩, ?_, ?_,
                ?_, fun hl => absurd hl (by show ¬ 3 < 3; omega)⟩
              · refine List.pairwise_cons.2 ⟨fun y hy => ?_, List.pairwise_cons.2 ⟨fun y hy => ?_,
                  List.pairwise_singleton _ _⟩⟩
                · rcases List.mem_cons.1 hy with rfl | hy
                  · exact o.asymm _ _ h2
                  · rcases List.mem_cons.1 hy with rfl | hy
                    · exact o.asymm _ _ h
                    · cases hy
                · rcases List.mem_cons.1 hy with rfl | hy
                  · exact hdc
                  · cases hy
              · exact List.Perm.refl _
              · intro y hy z hz
                rcases List.mem_cons.1 hy with rfl | hy
                · rcases List.mem_cons.1 hz with rfl | hz
                  · exact o.asymm _ _ h0
                  · rcases List.mem_cons.1 hz with rfl | hz
                    · exact hdb
                    · rcases List.mem_cons.1 hz with rfl | hz
                      · exact hcb
                      · cases hz
                · cases hy
            · have hb := not_better better x d h2
              refine ⟨⟨some b, some c, some x, some d⟩, by
                simp only [select, swap]; rw [if_pos h0]; simp only []; rw [if_pos h]
                simp only []; rw [if_neg h2],
                ⟨fun h => (by cases h), fun h => (by cases h), fun h => (by cases h)⟩, ?_, ?_,
                ?_, fun hl => absurd hl (by show ¬ 3 < 3; omega)⟩
              · refine List.pairwise_cons.2 ⟨fun y hy => ?_, List.pairwise_cons.2 ⟨fun y hy => ?_,
                  List.pairwise_singleton _ _⟩⟩
                · rcases List.mem_cons.1 hy with rfl | hy
                  · exact hb
                  · rcases List.mem_cons.1 hy with rfl | hy
                    · exact hdc
                    · cases hy
                · rcases List.mem_cons.1 hy with rfl | hy
                  · exact o.asymm _ _ h
                  · cases hy
              · exact List.Perm.swap _ _ _
              · intro y hy z hz
                rcases List.mem_cons.1 hy with rfl | hy
                · rcases List.mem_cons.1 hz with rfl | hz
                  · exact hdb
                  · rcases List.mem_cons.1 hz with rfl | hz
                    · exact o.asymm _ _ h0
                    · rcases List.mem_cons.1 hz with rfl | hz
                      · exact hcb
                      · cases hz
                · cases hy
          · have hb := not_better better x c h
            have hxd : better x d = false := o.trans _ _ _ hb hdc
            have hcd : (better c d) ≠ true := by rw [hdc]; decide
            refine ⟨⟨some b, some x, some c, some d⟩, by
                simp only [select, swap]; rw [if_pos h0]; simp only []; rw [if_neg h]
                simp only []; rw [if_neg hcd],
                ⟨fun h => (by cases h), fun h => (by cases h), fun h => (by cases h)⟩, ?_, ?_,
                ?_, fun hl => absurd hl (by show ¬ 3 < 3; omega)⟩
            · refine List.pairwise_cons.2 ⟨fun y hy => ?_, List.pairwise_cons.2 ⟨fun y hy => ?_,
                  List.pairwise_singleton _ _⟩⟩
              · rcases List.mem_cons.1 hy with rfl | hy
                · exact hdc
                · rcases List.mem_cons.1 hy with rfl | hy
                  · exact hxd
                  · cases hy
              · rcases List.mem_cons.1 hy with rfl | hy
                · exact hb
                · cases hy
            · exact (List.Perm.cons d (List.Perm.swap x c [b])).trans (List.Perm.swap x d [c, b])
            · intro y hy z hz
              rcases List.mem_cons.1 hy with rfl | hy
              · rcases List.mem_cons.1 hz with rfl | hz
                · exact hdb
                · rcases List.mem_cons.1 hz with rfl | hz
                  · exact hcb
                  · rcases List.mem_cons.1 hz with rfl | hz
                    · exact o.asymm _ _ h0
                    · cases hz
              · cases hy
        · have hb0 := not_better better x b h0
          have hcb' : (better b c) ≠ true := by rw [hcb]; decide
          have hcd : (better c d) ≠ true := by rw [hdc]; decide
          refine ⟨⟨some x, some b, some c, some d⟩, by
                simp only [select, swap]; rw [if_neg h0]; simp only []; rw [if_neg hcb']
                simp only []; rw [if_neg hcd],
                ⟨fun h => (by cases h), fun h => (by cases h), fun h => (by cases h)⟩, hs, ?_,
                ?_, fun hl => absurd hl (by show ¬ 3 < 3; omega)⟩
          · exact ((List.Perm.cons d (List.Perm.cons c (List.Perm.swap x b []))).trans
              (List.Perm.cons d (List.Perm.swap x c [b]))).trans (List.Perm.swap x d [c, b])
          · intro y hy z hz
            rcases List.mem_cons.1 hy with rfl | hy
            · rcases List.mem_cons.1 hz with rfl | hz
              · exact o.trans _ _ _ hb0 hdb
              · rcases List.mem_cons.1 hz with rfl | hz
                · exact o.trans _ _ _ hb0 hcb
                · rcases List.mem_cons.1 hz with rfl | hz
                  · exact hb0
                  · cases hz
            · cases hy

private theorem three_len (s : Arr α) : (three s).length ≤ 3 := by
  obtain ⟨r0, r1, r2, r3⟩ := s
  unfold three
  cases r1 <;> cases r2 <;> cases r3 <;>
    simp only [Option.toList, List.length_append, List.length_cons, List.length_nil] <;> omega

private theorem selectAll_spec {better : α → α → Bool} (o : Order better) (l : List α) (s : Arr α)
    (seen rest : List α) (hf : Filled s) (hs : Sorted better (three s))
    (hp : (three s ++ rest).Perm seen)
    (hr : ∀ x ∈ three s, ∀ y ∈ rest, better y x = false)
    (hl : rest ≠ [] → (three s).length = 3) :
    ∃ s' rest', selectAll better l s = some s' ∧ Filled s' ∧ Sorted better (three s') ∧
      (three s' ++ rest').Perm (seen ++ l) ∧
      (∀ x ∈ three s', ∀ y ∈ rest', better y x = false) ∧
      (rest' ≠ [] → (three s').length = 3) := by
  induction l generalizing s seen rest with
  | nil => exact ⟨s, rest, rfl, hf, hs, by rw [List.append_nil]; exact hp, hr, hl⟩
  | cons x l ih =>
    obtain ⟨s1, e1, f1, o1, p1, q1, n1⟩ := select_spec o s x hf hs
    have hlen : (three s1 ++ s1.r0.toList).length = (three s).length + 1 := by
      rw [p1.length_eq, List.length_cons]
    obtain ⟨s2, rest2, e2, g2⟩ := ih s1 (seen ++ [x]) (s1.r0.toList ++ rest) f1 o1
      (by
        rw [← List.append_assoc]
        refine (p1.append_right rest).trans ?_
        show (x :: (three s ++ rest)).Perm (seen ++ [x])
        exact (hp.cons x).trans (List.perm_append_comm (l₁ := [x]) (l₂ := seen)))
      (by
        intro z hz y hy
        rcases List.mem_append.1 hy with hy | hy
        · exact q1 y hy z hz
        · -- every kept element is new or was kept before
          by_cases hd : z ∈ three s
          · exact hr z hd y hy
          · have hlen3 := hl (fun hh => by rw [hh] at hy; cases hy)
            have hz' : z ∈ x :: three s := p1.mem_iff.1 (List.mem_append_left _ hz)
            have hzx : z = x := by
              rcases List.mem_cons.1 hz' with h | h
              · exact h
              · exact absurd h hd
            subst hzx
            have h3 := three_len s1
            cases h0 : s1.r0 with
            | none =>
              rw [h0] at hlen
              rw [Option.toList_none, List.append_nil] at hlen
              omega
            | some w =>
              have hw : w ∈ z :: three s := p1.mem_iff.1 (by
                rw [h0]; exact List.mem_append_right _ List.mem_cons_self)
              have hwz : better w z = false := q1 w (by rw [h0]; exact List.mem_cons_self) z hz
              rcases List.mem_cons.1 hw with rfl | hw
              · -- the new element itself dropped out; it occurs twice
                exfalso
                have hcount := p1
                rw [h0] at hcount
                have hsub : (three s1).Perm (three s) := by
                  have : (w :: three s1).Perm (w :: three s) :=
                    (List.perm_append_comm (l₁ := [w]) (l₂ := three s1)).trans hcount
                  exact List.Perm.cons_inv this
                exact hd (hsub.mem_iff.1 hz)
              · exact o.trans _ _ _ (hr w hw y hy) hwz)
      (by
        intro hne
        have h3 := three_len s1
        have h3' := three_len s
        rw [List.length_append] at hlen
        by_cases h0 : (three s).length < 3
        · have hn := n1 h0
          rw [hn] at hne
          have hr0 : rest ≠ [] := fun hh => hne (by rw [hh]; rfl)
          have := hl hr0
          omega
        · have hle : s1.r0.toList.length ≤ 1 := by
            cases s1.r0 with
            | none => exact Nat.zero_le _
            | some a => exact Nat.le_refl _
          omega)
    refine ⟨s2, rest2, ?_, ?_⟩
    · show (match select better { s with r0 := some x } with
        | none => none | some s' => selectAll better l s') = _
      rw [e1]
      exact e2
    · rw [List.append_assoc] at g2
      exact g2

/-- The null pointer is never compared, and the first three lines of the file are the three best
DNS servers, the best one first. -/
theorem C99_best_three_partial {better : α → α → Bool} (o : Order better) (l : List α) :
    ∃ out, resolv better l = some out ∧ Best better 3 l (out.take 3) := by
  obtain ⟨s, rest, e, f, h1, h2, h3, h4⟩ := selectAll_spec o l ⟨none, none, none, none⟩ [] []
    ⟨fun _ => rfl, fun _ => rfl, fun _ => rfl⟩ List.Pairwise.nil (List.Perm.refl _)
    (fun x hx => (by cases hx)) (fun h => absurd rfl h)
  refine ⟨lines s, by unfold resolv; rw [e]; rfl, rest, ?_⟩
  have ht : (lines s).take 3 = three s := by
    obtain ⟨f3, f2, f1⟩ := f
    obtain ⟨r0, r1, r2, r3⟩ := s
    simp only [] at f1 f2 f3
    unfold lines three
    cases r3 with
    | none =>
      have e2 := f3 rfl
      subst e2
      have e1 := f2 rfl
      subst e1
      rfl
    | some d =>
      cases r2 with
      | none =>
        have e1 := f2 rfl
        subst e1
        have e0 := f1 rfl
        subst e0
        rfl
      | some c =>
        cases r1 with
        | none =>
          have e0 := f1 rfl
          subst e0
          rfl
        | some b => cases r0 <;> rfl
  rw [ht]
  refine ⟨h2, h1, h3, ?_⟩
  have hlen : (three s).length + rest.length = l.length := by
    rw [← List.length_append, h2.length_eq]; rfl
  have h5 := three_len s
  by_cases hr : rest = []
  · rw [hr] at hlen
    have : (three s).length = l.length := by rw [← hlen]; rfl
    omega
  · have := h4 hr
    omega

/-- Routes compared by their cost. -/
private theorem order_lt : Order (fun a b : Nat => decide (a < b)) :=
  ⟨fun x y h => decide_eq_false (by have := of_decide_eq_true h; omega),
   fun x y z h1 h2 => decide_eq_false (by
     have := of_decide_eq_false h1
     have := of_decide_eq_false h2
     omega)⟩

example : ∃ out, resolv (fun a b : Nat => decide (a < b)) [5, 2, 9, 7, 1] = some out ∧
    Best (fun a b : Nat => decide (a < b)) 3 [5, 2, 9, 7, 1] (out.take 3) :=
  C99_best_three_partial order_lt _

/-- With up to three DNS servers the file holds exactly these. -/
theorem C99_few {better : α → α → Bool} (o : Order better) (l : List α) (h : l.length ≤ 3) :
    ∃ out, resolv better l = some out ∧ out.Perm l ∧ Sorted better out := by
  obtain ⟨s, rest, e, f, h1, h2, h3, h4⟩ := selectAll_spec o l ⟨none, none, none, none⟩ [] []
    ⟨fun _ => rfl, fun _ => rfl, fun _ => rfl⟩ List.Pairwise.nil (List.Perm.refl _)
    (fun x hx => (by cases hx)) (fun h => absurd rfl h)
  have hlen : (three s).length + rest.length = l.length := by
    rw [← List.length_append, h2.length_eq]; rfl
  have hr : rest = [] := by
    cases rest with
    | nil => rfl
    | cons a b =>
      have := h4 (fun hh => (by cases hh))
      rw [List.length_cons] at hlen
      omega
  subst hr
  rw [List.append_nil] at h2
  -- nothing was left in the first element
  have hr0 : ∀ (l : List α) (s s' : Arr α), Filled s → Sorted better (three s) → s.r0 = none →
      (three s).length + l.length ≤ 3 → selectAll better l s = some s' → s'.r0 = none := by
    intro l
    induction l with
    | nil => intro s s' _ _ h0 _ he; cases he; exact h0
    | cons x l ih =>
      intro s s' hf hs h0 hl he
      obtain ⟨s1, e1, f1, o1, p1, _, n1⟩ := select_spec o s x hf hs
      have he' : selectAll better l s1 = some s' := by
        have : selectAll better (x :: l) s = selectAll better l s1 := by
          show (match select better { s with r0 := some x } with
            | none => none | some s' => selectAll better l s') = _
          rw [e1]
        rw [← this]
        exact he
      rw [List.length_cons] at hl
      have hn := n1 (by omega)
      have hlen1 : (three s1).length = (three s).length + 1 := by
        have := p1.length_eq
        rw [hn, List.length_cons, List.length_append] at this
        exact this
      exact ih s1 s' f1 o1 hn (by omega) he'
  have h0 := hr0 l ⟨none, none, none, none⟩ s ⟨fun _ => rfl, fun _ => rfl, fun _ => rfl⟩ List.Pairwise.nil rfl
    (by show 0 + l.length ≤ 3; omega) e
  have ht : lines s = three s := by
    obtain ⟨f3, f2, f1⟩ := f
    obtain ⟨r0, r1, r2, r3⟩ := s
    simp only [] at f1 f2 f3 h0
    subst h0
    unfold lines three
    cases r3 with
    | none =>
      have e2 := f3 rfl
      subst e2
      have e1 := f2 rfl
      subst e1
      rfl
    | some d => cases r2 <;> cases r1 <;> rfl
  exact ⟨lines s, by unfold resolv; rw [e]; rfl, by rw [ht]; exact h2, by rw [ht]; exact h1⟩

example : ([4, 2, 3] : List Nat).length ≤ 3 := by decide

/-- But a fourth line is written, and it is not the fourth best: of five DNS servers with the costs
1, 2, 3, 4 and 9 the file names the one with cost 9 and not the one with cost 4. -/
theorem C99_fourth_line : resolv (fun a b : Nat => decide (a < b)) [1, 2, 3, 4, 9] =
    some [1, 2, 3, 9] ∧
    ¬ ∃ n, Best (fun a b : Nat => decide (a < b)) n [1, 2, 3, 4, 9] [1, 2, 3, 9] := by
  refine ⟨by decide, ?_⟩
  rintro ⟨n, rest, hp, _, hr, _⟩
  have h4 : (4 : Nat) ∈ [1, 2, 3, 9] ++ rest := hp.mem_iff.2 (by decide)
  rcases List.mem_append.1 h4 with h | h
  · exact absurd h (by decide)
  · exact absurd (hr 9 (by decide) 4 h) (by decide)

end Verif.NsSel
