import Verif.DlLemmas
/-
C121: the list of the p2pd plugin and its duplicate filter.

The list is meant to be a sequence: appending adds at the end, removing takes the
node out, clearing leaves nothing, and no node is leaked or touched after it has
been freed.  The filter is meant to call a message a duplicate exactly if an
accepted copy of it is not older than the timeout.
-/
namespace Verif.Dl

/-! ### Specification -/

/-- What a use does to the sequence of nodes; the counter names the next node. -/
def specStep {α : Type} : Nat × List (Nat × α) → Op α → Nat × List (Nat × α)
  | (n, l), .append x => (n + 1, l ++ [(n, x)])
  | (n, l), .remove a => (n, l.filter (fun q => decide (q.1 ≠ a)))
  | (n, _), .clear => (n, [])

/-- The sequence after some uses. -/
def specRun {α : Type} (os : List (Op α)) : List (Nat × α) := (os.foldl specStep (0, [])).2

/-! ### Proofs -/

private theorem filter_out {α : Type} (l : List (Nat × α)) (a : Nat) (hnd : (l.map Prod.fst).Nodup) :
    (a ∉ l.map Prod.fst ∧ l.filter (fun q => decide (q.1 ≠ a)) = l) ∨
    ∃ l1 x l2, l = l1 ++ (a, x) :: l2 ∧ l.filter (fun q => decide (q.1 ≠ a)) = l1 ++ l2 := by
  induction l with
  | nil => left; simp
  | cons q r ih =>
    rw [List.map_cons, List.nodup_cons] at hnd
    rcases ih hnd.2 with ⟨h1, h2⟩ | ⟨l1, x, l2, h1, h2⟩
    · by_cases hq : q.1 = a
      · right
        refine ⟨[], q.2, r, by rw [← hq]; rfl, ?_⟩
        rw [List.filter_cons_of_neg (by simp [hq]), h2]
        rfl
      · left
        refine ⟨?_, ?_⟩
        · rw [List.map_cons, List.mem_cons, not_or]
          exact ⟨fun hh => hq hh.symm, h1⟩
        · rw [List.filter_cons_of_pos (by simp [hq]), h2]
    · right
      have hq : q.1 ≠ a := fun hh => hnd.1 (by rw [hh, h1]; simp)
      refine ⟨q :: l1, x, l2, by rw [h1]; rfl, ?_⟩
      rw [List.filter_cons_of_pos (by simp [hq]), h2]
      rfl

private theorem apply_repr {α : Type} {d : DL α} {l : List (Nat × α)} (hr : Repr d l) (o : Op α) :
    ∃ e, apply d o = some e ∧ Repr e (specStep (d.fresh, l) o).2 ∧
      e.fresh = (specStep (d.fresh, l) o).1 := by
  cases o with
  | append x =>
    obtain ⟨e, h1, h2, h3⟩ := repr_append hr x
    exact ⟨e, h1, h2, h3⟩
  | remove a =>
    rcases filter_out l a hr.nd with ⟨h1, h2⟩ | ⟨l1, x, l2, h1, h2⟩
    · refine ⟨d, repr_remove_absent hr h1, ?_, rfl⟩
      simp only [specStep]
      rw [h2]
      exact hr
    · rw [h1] at hr
      obtain ⟨e, g1, g2, g3⟩ := repr_remove hr
      refine ⟨e, g1, ?_, g3⟩
      simp only [specStep]
      rw [h2]
      exact g2
  | clear =>
    obtain ⟨e, g1, g2, g3⟩ := repr_clear (d.fresh + 1) d l hr (by have := hr.len; omega)
    exact ⟨e, g1, g2, g3⟩

private theorem run_repr {α : Type} (os : List (Op α)) : ∀ (d : DL α) (l : List (Nat × α)), Repr d l →
    ∃ e, run d os = some e ∧ Repr e (os.foldl specStep (d.fresh, l)).2 := by
  induction os with
  | nil => intro d l hr; exact ⟨d, rfl, hr⟩
  | cons o os ih =>
    intro d l hr
    obtain ⟨e, h1, h2, h3⟩ := apply_repr hr o
    obtain ⟨f, g1, g2⟩ := ih e _ h2
    refine ⟨f, ?_, ?_⟩
    · unfold run; rw [h1]; exact g1
    · rw [List.foldl_cons]
      rw [h3] at g2
      exact g2

/-- **C121**: after every sequence of uses no freed or unallocated node has been
touched, reading the list from its head gives the nodes in the order of appending
without the removed ones, and exactly these nodes are still allocated. -/
theorem C121_list {α : Type} (os : List (Op α)) :
    ∃ d, run (empty α) os = some d ∧
      forward d.heap (d.fresh + 1) d.head = some (specRun os) ∧
      ∀ a, d.heap a ≠ none ↔ a ∈ (specRun os).map Prod.fst := by
  obtain ⟨d, h1, h2⟩ := run_repr os (empty α) [] repr_empty
  have h2' : Repr d (specRun os) := h2
  refine ⟨d, h1, ?_, fun a => ⟨h2'.cov a, ?_⟩⟩
  · rw [h2'.head]
    exact forward_seg d.heap _ none _ (by have := h2'.len; omega) h2'.seg
  · intro ha
    obtain ⟨q, hq, rfl⟩ := List.mem_map.1 ha
    obtain ⟨s, t, hst⟩ := List.append_of_mem hq
    have hs := h2'.seg
    rw [hst] at hs
    have := ((seg_append _ _ _ _ _).1 hs).2.1
    rw [this]
    simp

/-- Seven uses, among them the removal of the first, a middle, an unknown node. -/
example : (run (empty Nat) [.append 10, .append 11, .append 12, .append 13, .remove 1, .remove 0,
    .remove 7]).bind (fun d => forward d.heap (d.fresh + 1) d.head) = some [(2, 12), (3, 13)] ∧
    specRun [.append 10, .append 11, .append 12, .append 13, .remove 1, .remove 0,
      (.remove 7 : Op Nat)] = [(2, 12), (3, 13)] := by
  decide +kernel

/-- **C121**: and reading it backwards from its tail gives the same nodes in
reverse, as long as there are any. -/
theorem C121_backward {α : Type} (os : List (Op α)) (d : DL α) (h : run (empty α) os = some d)
    (hne : specRun os ≠ []) :
    backward d.heap (d.fresh + 1) d.tail = some (specRun os).reverse := by
  obtain ⟨e, h1, h2⟩ := run_repr os (empty α) [] repr_empty
  rw [h] at h1
  cases h1
  have h2' : Repr d (specRun os) := h2
  rw [h2'.tail hne]
  exact backward_seg d.heap _ _ none _ rfl (by have := h2'.len; omega) h2'.seg

example : (run (empty Nat) [.append 10, .append 11, .append 12, .remove 2, .append 13]).bind
    (fun d => backward d.heap (d.fresh + 1) d.tail) = some [(3, 13), (1, 11), (0, 10)] := by
  decide +kernel

/-- **C121, the edge**: the last node that is removed leaves its address in the
tail of the empty list: a tail that points at freed memory. -/
theorem C121_tail_negation {α : Type} (x : α) :
    ∃ d, run (empty α) [.append x, .remove 0] = some d ∧ d.head = none ∧
      d.tail = some 0 ∧ d.heap 0 = none := by
  refine ⟨⟨none, some 0, upd (upd (upd (fun _ => none) 0 (some ⟨none, none, x⟩)) 0
    (some ⟨none, none, x⟩)) 0 none, 1⟩, ?_, rfl, rfl, rfl⟩
  rfl

/-- The invariant of the filter: the entries of the list are accepted messages,
and every accepted message that is missing is too old for all that follow. -/
private theorem answers_spec {κ : Type} [DecidableEq κ] (timeout : Nat) (ms : List (Nat × κ)) :
    ∀ (d : DL (Dup κ)) (l : List (Nat × Dup κ)) (acc : List (Nat × κ)), Repr d l →
    (∀ q ∈ l, (q.2.time, q.2.key) ∈ acc) →
    (∀ a ∈ acc, (⟨a.1, a.2⟩ : Dup κ) ∈ l.map Prod.snd ∨ ∀ m ∈ ms, a.1 + timeout < m.1) →
    ms.Pairwise (fun a b => a.1 ≤ b.1) →
    ∃ bs, answers timeout d ms = some bs ∧ bs.length = ms.length ∧
      ∀ (i : Nat) (m : Nat × κ), ms[i]? = some m → (bs[i]? = some true ↔
        (∃ a ∈ acc, a.2 = m.2 ∧ m.1 ≤ a.1 + timeout) ∨
        ∃ (j : Nat) (m' : Nat × κ), j < i ∧ ms[j]? = some m' ∧ bs[j]? = some false ∧ m'.2 = m.2 ∧
          m.1 ≤ m'.1 + timeout) := by
  induction ms with
  | nil =>
    intro d l acc _ _ _ _
    exact ⟨[], rfl, rfl, fun i m h => by simp at h⟩
  | cons m0 ms ih =>
    intro d l acc hr hin hout hp
    obtain ⟨now, k⟩ := m0
    rw [List.pairwise_cons] at hp
    obtain ⟨r, h1, h2, l', h3, h4⟩ := repr_isDuplicate timeout now k d l hr
    have hacc : (∃ q ∈ l, now ≤ q.2.time + timeout ∧ q.2.key = k) ↔
        ∃ a ∈ acc, a.2 = k ∧ now ≤ a.1 + timeout := by
      constructor
      · rintro ⟨q, hq, g1, g2⟩
        exact ⟨_, hin q hq, g2, g1⟩
      · rintro ⟨a, ha, g1, g2⟩
        rcases hout a ha with hm | hm
        · obtain ⟨q, hq, he⟩ := List.mem_map.1 hm
          refine ⟨q, hq, ?_, ?_⟩
          · rw [he]; exact g2
          · rw [he]; exact g1
        · have := hm (now, k) (List.mem_cons_self ..)
          simp only [] at this
          omega
    rw [hacc] at h2
    obtain ⟨acc', hacc'⟩ : ∃ acc', acc' = acc ++ (if r.1 then [] else [(now, k)]) := ⟨_, rfl⟩
    have hin' : ∀ q ∈ l', (q.2.time, q.2.key) ∈ acc' := by
      intro q hq
      have : q.2 ∈ l'.map Prod.snd := List.mem_map.2 ⟨q, hq, rfl⟩
      rw [h4] at this
      rw [hacc']
      rcases List.mem_append.1 this with g | g
      · obtain ⟨q', hq', he⟩ := List.mem_map.1 (List.mem_filter.1 g).1
        rw [← he]
        exact List.mem_append.2 (Or.inl (hin q' hq'))
      · apply List.mem_append.2
        right
        cases hb : r.1 with
        | true => rw [hb] at g; simp at g
        | false =>
          rw [hb] at g
          simp at g
          simp [g]
    have hout' : ∀ a ∈ acc', (⟨a.1, a.2⟩ : Dup κ) ∈ l'.map Prod.snd ∨ ∀ m ∈ ms, a.1 + timeout < m.1 := by
      intro a ha
      rw [hacc'] at ha
      rcases List.mem_append.1 ha with g | g
      · rcases hout a g with hm | hm
        · by_cases ho : a.1 + timeout < now
          · right
            intro m hm'
            have := hp.1 m hm'
            simp only [] at this
            omega
          · left
            rw [h4]
            exact List.mem_append.2 (Or.inl (List.mem_filter.2 ⟨hm, by simp; omega⟩))
        · right
          exact fun m hm' => hm m (List.mem_cons_of_mem _ hm')
      · left
        rw [h4]
        apply List.mem_append.2
        right
        cases hb : r.1 with
        | true => rw [hb] at g; simp at g
        | false =>
          rw [hb] at g
          simp at g
          simp [g]
    obtain ⟨bs, g1, g2, g3⟩ := ih r.2 l' acc' h3 hin' hout' hp.2
    refine ⟨r.1 :: bs, ?_, by simp [g2], ?_⟩
    · unfold answers
      rw [h1]
      simp only [Option.bind_some]
      rw [g1]
      rfl
    · intro i m hm
      cases i with
      | zero =>
        simp at hm
        subst hm
        simp only [List.getElem?_cons_zero, Option.some.injEq]
        rw [h2]
        constructor
        · exact fun hh => Or.inl hh
        · rintro (hh | ⟨j, _, hj, _⟩)
          · exact hh
          · omega
      | succ i =>
        simp only [List.getElem?_cons_succ] at hm ⊢
        rw [g3 i m hm]
        constructor
        · rintro (⟨a, ha, e1, e2⟩ | ⟨j, m', hj, e1, e2, e3, e4⟩)
          · rw [hacc'] at ha
            rcases List.mem_append.1 ha with g | g
            · exact Or.inl ⟨a, g, e1, e2⟩
            · right
              cases hb : r.1 with
              | true => rw [hb] at g; simp at g
              | false =>
                rw [hb] at g
                simp at g
                subst g
                exact ⟨0, (now, k), by omega, rfl, rfl, e1, e2⟩
          · exact Or.inr ⟨j + 1, m', by omega, by simpa using e1, by simpa using e2, e3, e4⟩
        · rintro (⟨a, ha, e1, e2⟩ | ⟨j, m', hj, e1, e2, e3, e4⟩)
          · left
            exact ⟨a, by rw [hacc']; exact List.mem_append.2 (Or.inl ha), e1, e2⟩
          · cases j with
            | zero =>
              simp only [List.getElem?_cons_zero, Option.some.injEq] at e1 e2
              left
              refine ⟨m', ?_, e3, e4⟩
              rw [hacc', e2]
              simp [e1]
            | succ j =>
              right
              exact ⟨j, m', by omega, by simpa using e1, by simpa using e2, e3, e4⟩

/-- **C121**: the filter.  On a clock that does not run backwards, message `i` is
called a duplicate exactly if an earlier message of the same key was not, and the
time that has passed since that one is at most the timeout. -/
theorem C121_filter_partial {κ : Type} [DecidableEq κ] (timeout : Nat) (ms : List (Nat × κ))
    (hp : ms.Pairwise (fun a b => a.1 ≤ b.1)) :
    ∃ bs, answers timeout (empty (Dup κ)) ms = some bs ∧ bs.length = ms.length ∧
      ∀ (i : Nat) (m : Nat × κ), ms[i]? = some m → (bs[i]? = some true ↔
        ∃ (j : Nat) (m' : Nat × κ), j < i ∧ ms[j]? = some m' ∧ bs[j]? = some false ∧ m'.2 = m.2 ∧
          m.1 ≤ m'.1 + timeout) := by
  obtain ⟨bs, h1, h2, h3⟩ := answers_spec timeout ms (empty (Dup κ)) [] [] repr_empty
    (by simp) (by simp) hp
  refine ⟨bs, h1, h2, fun i m hm => ?_⟩
  rw [h3 i m hm]
  simp

/-- Times 0, 100, 180, 181 and a timeout of 180: the last copy is accepted again. -/
example : answers 180 (empty (Dup Nat)) [(0, 7), (100, 7), (150, 8), (180, 7), (181, 7), (361, 7)] =
    some [false, true, false, true, false, true] := by decide +kernel

/-- **C121**: two copies of a message that both get through are more than the
timeout apart. -/
theorem C121_apart_partial {κ : Type} [DecidableEq κ] (timeout : Nat) (ms : List (Nat × κ))
    (hp : ms.Pairwise (fun a b => a.1 ≤ b.1)) (bs : List Bool)
    (h : answers timeout (empty (Dup κ)) ms = some bs) (i j : Nat) (m m' : Nat × κ) (hij : j < i)
    (hi : ms[i]? = some m) (hj : ms[j]? = some m') (hk : m'.2 = m.2)
    (bi : bs[i]? = some false) (bj : bs[j]? = some false) : m'.1 + timeout < m.1 := by
  obtain ⟨cs, h1, _, h3⟩ := C121_filter_partial timeout ms hp
  rw [h] at h1
  cases h1
  apply Nat.lt_of_not_le
  intro hh
  have := (h3 i m hi).2 ⟨j, m', hij, hj, bj, hk, hh⟩
  rw [bi] at this
  cases this

example : answers 180 (empty (Dup Nat)) [(0, 7), (180, 7), (181, 7)] = some [false, true, false] ∧
    (0 : Nat) + 180 < 181 := by decide +kernel

/-- **C121**: without any assumption on the clock the filter never touches freed
memory. -/
theorem C121_safe {κ : Type} [DecidableEq κ] (timeout : Nat) (ms : List (Nat × κ)) :
    ∃ bs, answers timeout (empty (Dup κ)) ms = some bs ∧ bs.length = ms.length := by
  have main : ∀ (ms : List (Nat × κ)) (d : DL (Dup κ)) (l : List (Nat × Dup κ)), Repr d l →
      ∃ bs, answers timeout d ms = some bs ∧ bs.length = ms.length := by
    intro ms
    induction ms with
    | nil => intro d l _; exact ⟨[], rfl, rfl⟩
    | cons m ms ih =>
      intro d l hr
      obtain ⟨r, h1, _, l', h3, _⟩ := repr_isDuplicate timeout m.1 m.2 d l hr
      obtain ⟨bs, g1, g2⟩ := ih r.2 l' h3
      refine ⟨r.1 :: bs, ?_, by simp [g2]⟩
      unfold answers
      rw [h1]
      simp only [Option.bind_some]
      rw [g1]
      rfl
  exact main ms _ [] repr_empty

/-- A clock that runs backwards. -/
example : answers 180 (empty (Dup Nat)) [(1000, 7), (0, 7), (2000, 8), (1000, 7)] =
    some [false, true, false, false] := by decide +kernel

/-- **C121, the limit**: what the filter needs the clock for.  Once a message has
been forgotten because the clock was put forward, a copy is accepted again within
the timeout. -/
theorem C121_clock_negation :
    answers 180 (empty (Dup Nat)) [(1000, 7), (2000, 8), (1000, 7)] = some [false, false, false] := by
  decide +kernel

/-- **C121, the limit**: the duplicates do not renew the entry: a message that
comes back every minute is let through again after the timeout, so a copy that
circulates for longer than the timeout is not stopped. -/
theorem C121_renew_negation :
    answers 180 (empty (Dup Nat)) [(0, 7), (60, 7), (120, 7), (180, 7), (240, 7)] =
      some [false, true, true, true, false] := by
  decide +kernel

end Verif.Dl
