import Verif.InfoOutSpec
/-
Lemmas about the sending of the replies of an info plugin.
-/
namespace Verif.InfoOut

/-- The invariant of the slots: `done` are the requests so far. -/
structure Inv (done : List (Nat × Bytes)) (st : St) : Prop where
  len : st.slots.length = 8
  cnt : st.count = (st.slots.countP Option.isSome : Nat)
  uniq : ∀ (i j : Nat) (s t : Slot), st.slots[i]? = some (some s) → st.slots[j]? = some (some t) →
    s.sock = t.sock → i = j
  held : ∀ (i : Nat) (s : Slot), st.slots[i]? = some (some s) → (s.sock, s.data) ∈ done ∧
    ∃ chunks : List Bytes, st.log.filter (about s.sock) = chunks.map (Ev.sent s.sock) ∧
      chunks.flatten = s.data.take s.written
  over : ∀ k d, (k, d) ∈ done →
    (∃ (i : Nat) (s : Slot), st.slots[i]? = some (some s) ∧ s.sock = k ∧ s.data = d) ∨
    Over k d (st.log.filter (about k))
  fresh : ∀ k, (∀ d, (k, d) ∉ done) → st.log.filter (about k) = []

/-- Each connection appears once. -/
def Distinct (done : List (Nat × Bytes)) : Prop :=
  ∀ k d d', (k, d) ∈ done → (k, d') ∈ done → d = d'

theorem take_add (d : Bytes) (w n : Nat) :
    d.take w ++ (d.drop w).take n = d.take (w + n) := by
  rw [List.take_add]

theorem take_min (d : Bytes) (w n : Nat) :
    d.take (w + min n (d.length - w)) = d.take (w + n) := by
  by_cases h : n ≤ d.length - w
  · rw [Nat.min_eq_left h]
  · rw [Nat.min_eq_right (by omega), List.take_of_length_le (by omega), List.take_of_length_le (by omega)]

theorem filter_other {k j : Nat} (l : List Ev) (es : List Ev)
    (he : ∀ e ∈ es, about j e = true) (hx : ∀ e, about j e = true → about k e = false) :
    (l ++ es).filter (about k) = l.filter (about k) := by
  rw [List.filter_append]
  have : es.filter (about k) = [] := by
    rw [List.filter_eq_nil_iff]
    intro e hee
    rw [hx e (he e hee)]
    simp
  rw [this, List.append_nil]

theorem about_other {k j : Nat} (h : k ≠ j) : ∀ e, about j e = true → about k e = false := by
  intro e he
  cases e <;> simp only [about, decide_eq_true_eq, decide_eq_false_iff_not] at he ⊢ <;> omega

theorem filter_same {k : Nat} (l es : List Ev) (he : ∀ e ∈ es, about k e = true) :
    (l ++ es).filter (about k) = l.filter (about k) ++ es := by
  rw [List.filter_append]
  congr 1
  rw [List.filter_eq_self]
  exact he

theorem countP_close (l : List (Option Slot)) (i : Nat) (s : Slot) (h : l[i]? = some (some s)) :
    ((l.set i none).countP Option.isSome : Int) = (l.countP Option.isSome : Int) - 1 := by
  obtain ⟨hi, he⟩ := List.getElem?_eq_some_iff.mp h
  have h1 := List.countP_set (p := Option.isSome) (l := l) (i := i) (a := none) hi
  rw [he] at h1
  have h2 : 0 < l.countP Option.isSome := by
    rw [List.countP_pos_iff]
    exact ⟨some s, List.mem_of_getElem? h, rfl⟩
  simp at h1
  omega

theorem countP_keep (l : List (Option Slot)) (i : Nat) (s t : Slot) (h : l[i]? = some (some s)) :
    (l.set i (some t)).countP Option.isSome = l.countP Option.isSome := by
  obtain ⟨hi, he⟩ := List.getElem?_eq_some_iff.mp h
  have h1 := List.countP_set (p := Option.isSome) (l := l) (i := i) (a := some t) hi
  rw [he] at h1
  have h2 : 0 < l.countP Option.isSome := by
    rw [List.countP_pos_iff]
    exact ⟨some s, List.mem_of_getElem? h, rfl⟩
  simp at h1
  omega

theorem countP_open (l : List (Option Slot)) (i : Nat) (t : Slot) (h : l[i]? = some none) :
    (l.set i (some t)).countP Option.isSome = l.countP Option.isSome + 1 := by
  obtain ⟨hi, he⟩ := List.getElem?_eq_some_iff.mp h
  have h1 := List.countP_set (p := Option.isSome) (l := l) (i := i) (a := some t) hi
  rw [he] at h1
  simp at h1
  omega

theorem get_set {l : List (Option Slot)} {i j : Nat} {a : Option Slot} {s : Slot}
    (h : (l.set i a)[j]? = some (some s)) : (j = i ∧ a = some s) ∨ (j ≠ i ∧ l[j]? = some (some s)) := by
  rw [List.getElem?_set] at h
  by_cases hij : i = j
  · rw [if_pos hij] at h
    by_cases hl : j < l.length
    · subst hij
      rw [if_pos hl] at h
      exact Or.inl ⟨rfl, by injection h⟩
    · subst hij
      rw [if_neg hl] at h
      cases h
  · rw [if_neg hij] at h
    exact Or.inr ⟨fun e => hij e.symm, h⟩

/-- A slot is emptied with a log that tells the end of its connection. -/
theorem close_inv (done : List (Nat × Bytes)) (hd : Distinct done) (st : St) (h : Inv done st) (i : Nat) (s : Slot)
    (hs : st.slots[i]? = some (some s)) (es : List Ev) (he : ∀ e ∈ es, about s.sock e = true)
    (ho : Over s.sock s.data (st.log.filter (about s.sock) ++ es)) :
    Inv done { st with slots := st.slots.set i none, count := st.count - 1, log := st.log ++ es } := by
  refine ⟨by simp [h.len], ?_, ?_, ?_, ?_, ?_⟩
  · show st.count - 1 = _
    rw [countP_close _ _ _ hs, h.cnt]
  · intro a b p q hp hq e
    rcases get_set hp with ⟨_, k⟩ | ⟨_, hp⟩
    · cases k
    rcases get_set hq with ⟨_, k⟩ | ⟨_, hq⟩
    · cases k
    exact h.uniq a b p q hp hq e
  · intro a p hp
    rcases get_set hp with ⟨_, k⟩ | ⟨hne, hp⟩
    · cases k
    have hk : p.sock ≠ s.sock := fun e => hne (h.uniq a i p s hp hs e)
    obtain ⟨g1, chunks, g2, g3⟩ := h.held a p hp
    refine ⟨g1, chunks, ?_, g3⟩
    show (st.log ++ es).filter _ = _
    rw [filter_other st.log es he (about_other hk)]
    exact g2
  · intro k d hkd
    by_cases hk : k = s.sock
    · right
      have hdd : d = s.data := hd k d s.data hkd (by rw [hk]; exact (h.held i s hs).1)
      show Over k d ((st.log ++ es).filter (about k))
      rw [hk, filter_same _ _ he, hdd]
      exact ho
    · rcases h.over k d hkd with ⟨a, p, g1, g2, g3⟩ | g
      · left
        refine ⟨a, p, ?_, g2, g3⟩
        show (st.slots.set i none)[a]? = _
        rw [List.getElem?_set, if_neg]
        · exact g1
        · rintro rfl
          rw [hs] at g1
          injection g1 with g1
          injection g1 with g1
          subst g1
          exact hk g2.symm
      · right
        show Over k d ((st.log ++ es).filter (about k))
        rw [filter_other st.log es he (about_other hk)]
        exact g
  · intro k hk
    have hne : k ≠ s.sock := by
      rintro rfl
      exact hk _ (h.held i s hs).1
    show (st.log ++ es).filter (about k) = []
    rw [filter_other st.log es he (about_other hne)]
    exact h.fresh k hk

theorem map_concat (k : Nat) (chunks : List Bytes) (b : Bytes) :
    chunks.map (Ev.sent k) ++ [Ev.sent k b] = (chunks ++ [b]).map (Ev.sent k) := by
  rw [List.map_append]; rfl

theorem step_inv (done : List (Nat × Bytes)) (hd : Distinct done) (o : Snd) (st : St) (i : Nat)
    (h : Inv done st) : Inv done (stepSlot o st i) ∧ (stepSlot o st i).timer = st.timer := by
  unfold stepSlot
  split
  · rename_i s hs
    obtain ⟨g1, chunks, g2, g3⟩ := h.held i s hs
    cases o with
    | again => exact ⟨h, rfl⟩
    | fail =>
      refine ⟨close_inv done hd st h i s hs _ ?_ ?_, rfl⟩
      · intro e he
        simp only [List.mem_cons, List.not_mem_nil, or_false] at he
        rcases he with rfl | rfl <;> simp [about]
      · right; right
        refine ⟨chunks, s.data.drop s.written, ?_, by rw [g2]⟩
        rw [g3, List.take_append_drop]
    | bytes n =>
      simp only []
      by_cases hc : s.data.length ≤ s.written + min n (s.data.length - s.written)
      · rw [if_pos hc]
        refine ⟨close_inv done hd st h i s hs _ ?_ ?_, rfl⟩
        · intro e he
          simp only [List.mem_cons, List.not_mem_nil, or_false] at he
          rcases he with rfl | rfl <;> simp [about]
        · right; left
          refine ⟨chunks ++ [(s.data.drop s.written).take n], ?_, ?_⟩
          · rw [List.flatten_append, g3]
            show s.data = s.data.take s.written ++ ((s.data.drop s.written).take n ++ [])
            rw [List.append_nil, take_add, ← take_min, List.take_of_length_le hc]
          · rw [g2, ← map_concat, List.append_assoc]; rfl
      · rw [if_neg hc]
        have hab : ∀ e ∈ [Ev.sent s.sock ((s.data.drop s.written).take n)], about s.sock e = true := by
          intro e he
          rw [List.mem_singleton.mp he]
          simp [about]
        refine ⟨⟨by simp [h.len], ?_, ?_, ?_, ?_, ?_⟩, rfl⟩
        · show st.count = _
          rw [countP_keep _ _ _ _ hs]
          exact h.cnt
        · intro a b p q hp hq e
          have key : ∀ (j : Nat) (x : Slot), (st.slots.set i (some { s with
              written := s.written + min n (s.data.length - s.written) }))[j]? = some (some x) →
              ∃ y, st.slots[j]? = some (some y) ∧ y.sock = x.sock := by
            intro j x hx
            rcases get_set hx with ⟨k1, k2⟩ | ⟨_, k⟩
            · injection k2 with k2
              subst k1
              exact ⟨s, hs, by rw [← k2]⟩
            · exact ⟨x, k, rfl⟩
          obtain ⟨p', hp1, hp2⟩ := key a p hp
          obtain ⟨q', hq1, hq2⟩ := key b q hq
          exact h.uniq a b p' q' hp1 hq1 (by rw [hp2, hq2]; exact e)
        · intro a p hp
          rcases get_set hp with ⟨k1, k2⟩ | ⟨hne, hp⟩
          · injection k2 with k2
            subst k2
            refine ⟨g1, chunks ++ [(s.data.drop s.written).take n], ?_, ?_⟩
            · show (st.log ++ _).filter (about s.sock) = _
              rw [filter_same _ _ hab, g2]
              exact map_concat _ _ _
            · rw [List.flatten_append, g3]
              show s.data.take s.written ++ ((s.data.drop s.written).take n ++ []) = _
              rw [List.append_nil, take_add]
              exact (take_min _ _ _).symm
          · have hk : p.sock ≠ s.sock := fun e => hne (h.uniq a i p s hp hs e)
            obtain ⟨q1, ch, q2, q3⟩ := h.held a p hp
            refine ⟨q1, ch, ?_, q3⟩
            show (st.log ++ _).filter _ = _
            rw [filter_other st.log _ hab (about_other hk)]
            exact q2
        · intro k d hkd
          rcases h.over k d hkd with ⟨a, p, q1, q2, q3⟩ | g
          · left
            by_cases ha : i = a
            · subst ha
              rw [hs] at q1
              injection q1 with q1
              injection q1 with q1
              subst q1
              refine ⟨i, _, List.getElem?_set_self (List.getElem?_eq_some_iff.mp hs).1, q2, q3⟩
            · refine ⟨a, p, ?_, q2, q3⟩
              show (st.slots.set i _)[a]? = _
              rw [List.getElem?_set, if_neg ha]
              exact q1
          · by_cases hk : k = s.sock
            · exfalso
              have hdd : d = s.data := hd k d s.data hkd (by rw [hk]; exact g1)
              rw [hk, g2] at g
              have hno : ∀ e ∈ chunks.map (Ev.sent s.sock), ∃ b, e = Ev.sent s.sock b := by
                intro e he
                obtain ⟨b, _, hb⟩ := List.mem_map.mp he
                exact ⟨b, hb.symm⟩
              rcases g with g | ⟨ch, _, g⟩ | ⟨ch, r, _, g⟩
              · obtain ⟨b, hb⟩ := hno (Ev.refused s.sock) (by rw [g]; simp)
                cases hb
              · obtain ⟨b, hb⟩ := hno (Ev.closed s.sock) (by rw [g]; simp)
                cases hb
              · obtain ⟨b, hb⟩ := hno (Ev.closed s.sock) (by rw [g]; simp)
                cases hb
            · right
              show Over k d ((st.log ++ _).filter (about k))
              rw [filter_other st.log _ hab (about_other hk)]
              exact g
        · intro k hk
          have hne : k ≠ s.sock := by
            rintro rfl
            exact hk _ g1
          show (st.log ++ _).filter (about k) = []
          rw [filter_other st.log _ hab (about_other hne)]
          exact h.fresh k hk
  · exact ⟨h, rfl⟩

theorem loop_inv (done : List (Nat × Bytes)) (hd : Distinct done) (outs : Nat → Snd) :
    ∀ (l : List Nat) (st : St), Inv done st →
      Inv done (l.foldl (fun st i => stepSlot (outs i) st i) st) ∧
      (l.foldl (fun st i => stepSlot (outs i) st i) st).timer = st.timer
  | [], st, h => ⟨h, rfl⟩
  | i :: l, st, h => by
    obtain ⟨h1, h2⟩ := step_inv done hd (outs i) st i h
    obtain ⟨h3, h4⟩ := loop_inv done hd outs l _ h1
    exact ⟨h3, h4.trans h2⟩

/-- The timer runs exactly while something is to be sent. -/
def TimerOk (st : St) : Prop := st.timer = true ↔ st.count ≠ 0

theorem write_inv (done : List (Nat × Bytes)) (hd : Distinct done) (ready : Bool) (outs : Nat → Snd)
    (st : St) (h : Inv done st) :
    Inv done (writeData ready outs st) ∧
    ((writeData ready outs st).timer = st.timer ∨
      ((writeData ready outs st).timer = false ∧ (writeData ready outs st).count = 0)) ∧
    (st.count ≠ 0 → (writeData ready outs st).count = 0 → (writeData ready outs st).timer = false) := by
  unfold writeData
  by_cases h1 : st.count ≤ 0
  · rw [if_pos h1]
    have : 0 ≤ st.count := by rw [h.cnt]; omega
    exact ⟨h, Or.inl rfl, fun a b => absurd b a⟩
  · rw [if_neg h1]
    cases ready with
    | false => exact ⟨h, Or.inl rfl, fun a b => absurd b a⟩
    | true =>
      rw [if_neg (by simp)]
      obtain ⟨g1, g2⟩ := loop_inv done hd outs (List.range maxClients) st h
      generalize (List.range maxClients).foldl (fun st i => stepSlot (outs i) st i) st = st' at g1 g2
      unfold stopTimer
      by_cases hc : st'.count = 0
      · rw [if_pos hc]
        exact ⟨⟨g1.len, g1.cnt, g1.uniq, g1.held, g1.over, g1.fresh⟩, Or.inr ⟨rfl, hc⟩, fun _ _ => rfl⟩
      · rw [if_neg hc]
        exact ⟨g1, Or.inl g2, fun _ b => absurd b hc⟩

theorem lastFree_spec (slots : List (Option Slot)) : ∀ n i, lastFree slots n = some i →
    slots[i]? = some none
  | 0, i, h => by cases h
  | n + 1, i, h => by
    unfold lastFree at h
    by_cases hc : slots[n]? = some none
    · rw [if_pos hc] at h
      injection h with h
      subst h
      exact hc
    · rw [if_neg hc] at h
      exact lastFree_spec slots n i h

theorem lastFree_none (slots : List (Option Slot)) : ∀ n, lastFree slots n = none →
    ∀ i < n, slots[i]? ≠ some none
  | 0, _, i, hi => by omega
  | n + 1, h, i, hi => by
    unfold lastFree at h
    by_cases hc : slots[n]? = some none
    · rw [if_pos hc] at h; cases h
    · rw [if_neg hc] at h
      by_cases hin : i = n
      · subst hin; exact hc
      · exact lastFree_none slots n h i (by omega)

theorem all_used (slots : List (Option Slot)) (hl : slots.length = 8)
    (h : ∀ i < 8, slots[i]? ≠ some none) : slots.countP Option.isSome = 8 := by
  rw [← hl, List.countP_eq_length]
  intro a ha
  obtain ⟨i, hi, he⟩ := List.mem_iff_getElem.mp ha
  cases a with
  | some s => rfl
  | none =>
    exfalso
    exact h i (by omega) (by rw [List.getElem?_eq_some_iff]; exact ⟨hi, he⟩)

theorem place_inv (done : List (Nat × Bytes)) (st : St) (h : Inv done st) (i k : Nat)
    (d : Bytes) (hi : st.slots[i]? = some none) (hk : ∀ d', (k, d') ∉ done) :
    Inv ((k, d) :: done)
      { st with
        slots := st.slots.set i (some { sock := k, data := d, written := 0 })
        count := st.count + 1 } := by
  refine ⟨by simp [h.len], ?_, ?_, ?_, ?_, ?_⟩
  · show st.count + 1 = _
    rw [countP_open _ _ _ hi, h.cnt]
    omega
  · intro a b p q hp hq e
    rcases get_set hp with ⟨k1, k2⟩ | ⟨k1, k2⟩ <;> rcases get_set hq with ⟨l1, l2⟩ | ⟨l1, l2⟩
    · omega
    · exfalso
      injection k2 with k2
      exact hk _ (by
        have := (h.held b q l2).1
        rw [← e, ← k2] at this
        exact this)
    · exfalso
      injection l2 with l2
      exact hk _ (by
        have := (h.held a p k2).1
        rw [e, ← l2] at this
        exact this)
    · exact h.uniq a b p q k2 l2 e
  · intro a p hp
    rcases get_set hp with ⟨k1, k2⟩ | ⟨k1, k2⟩
    · injection k2 with k2
      subst k2
      refine ⟨List.mem_cons_self, [], ?_, ?_⟩
      · exact h.fresh k hk
      · simp
    · obtain ⟨g1, g2⟩ := h.held a p k2
      exact ⟨List.mem_cons_of_mem _ g1, g2⟩
  · intro k' d' hkd
    rcases List.mem_cons.mp hkd with e | hkd
    · injection e with e1 e2
      subst e1; subst e2
      left
      exact ⟨i, _, List.getElem?_set_self (List.getElem?_eq_some_iff.mp hi).1, rfl, rfl⟩
    · rcases h.over k' d' hkd with ⟨a, p, q1, q2, q3⟩ | g
      · left
        refine ⟨a, p, ?_, q2, q3⟩
        show (st.slots.set i _)[a]? = _
        rw [List.getElem?_set, if_neg]
        · exact q1
        · rintro rfl
          rw [hi] at q1
          cases q1
      · exact Or.inr g
  · intro k' hk'
    exact h.fresh k' (fun d' hd' => hk' d' (List.mem_cons_of_mem _ hd'))

theorem refuse_inv (done : List (Nat × Bytes)) (st : St) (h : Inv done st) (k : Nat)
    (d : Bytes) (hk : ∀ d', (k, d') ∉ done) :
    Inv ((k, d) :: done) { st with log := st.log ++ [.refused k] } := by
  have hab : ∀ e ∈ [Ev.refused k], about k e = true := by
    intro e he
    rw [List.mem_singleton.mp he]
    simp [about]
  refine ⟨h.len, h.cnt, h.uniq, ?_, ?_, ?_⟩
  · intro a p hp
    obtain ⟨g1, ch, g2, g3⟩ := h.held a p hp
    have hne : p.sock ≠ k := by
      rintro rfl
      exact hk _ g1
    refine ⟨List.mem_cons_of_mem _ g1, ch, ?_, g3⟩
    show (st.log ++ _).filter _ = _
    rw [filter_other st.log _ hab (about_other hne)]
    exact g2
  · intro k' d' hkd
    rcases List.mem_cons.mp hkd with e | hkd2
    · injection e with e1 e2
      subst e1; subst e2
      right; left
      show (st.log ++ _).filter _ = _
      rw [filter_same _ _ hab, h.fresh k' hk]
      rfl
    · have hne : k' ≠ k := by
        rintro rfl
        exact hk _ hkd2
      rcases h.over k' d' hkd2 with g | g
      · exact Or.inl g
      · right
        show Over k' d' ((st.log ++ _).filter _)
        rw [filter_other st.log _ hab (about_other hne)]
        exact g
  · intro k' hk'
    have hne : k' ≠ k := by
      rintro rfl
      exact hk' d List.mem_cons_self
    show (st.log ++ _).filter _ = _
    rw [filter_other st.log _ hab (about_other hne)]
    exact h.fresh k' (fun d' hd' => hk' d' (List.mem_cons_of_mem _ hd'))

theorem step_mono (o : Snd) (st : St) (i j : Nat) (s : Slot)
    (h : (stepSlot o st i).slots[j]? = some (some s)) : ∃ s', st.slots[j]? = some (some s') := by
  unfold stepSlot at h
  split at h
  · rename_i t ht
    cases o with
    | again => exact ⟨s, h⟩
    | fail =>
      rcases get_set h with ⟨_, k⟩ | ⟨_, k⟩
      · cases k
      · exact ⟨s, k⟩
    | bytes n =>
      simp only [] at h
      split at h
      · rcases get_set h with ⟨_, k⟩ | ⟨_, k⟩
        · cases k
        · exact ⟨s, k⟩
      · rcases get_set h with ⟨k, _⟩ | ⟨_, k⟩
        · subst k; exact ⟨t, ht⟩
        · exact ⟨s, k⟩
  · exact ⟨s, h⟩

theorem loop_mono (outs : Nat → Snd) : ∀ (l : List Nat) (st : St) (j : Nat) (s : Slot),
    (l.foldl (fun st i => stepSlot (outs i) st i) st).slots[j]? = some (some s) →
    ∃ s', st.slots[j]? = some (some s')
  | [], st, j, s, h => ⟨s, h⟩
  | i :: l, st, j, s, h => by
    obtain ⟨s', h'⟩ := loop_mono outs l _ j s h
    exact step_mono _ _ _ _ _ h'

theorem write_mono (ready : Bool) (outs : Nat → Snd) (st : St) (j : Nat) (s : Slot)
    (h : (writeData ready outs st).slots[j]? = some (some s)) : ∃ s', st.slots[j]? = some (some s') := by
  unfold writeData at h
  split at h
  · exact ⟨s, h⟩
  · split at h
    · exact ⟨s, h⟩
    · unfold stopTimer at h
      split at h <;> exact loop_mono outs _ st j s h

theorem count_pos {done : List (Nat × Bytes)} {st : St} (h : Inv done st) {j : Nat} {s : Slot}
    (hj : st.slots[j]? = some (some s)) : st.count ≠ 0 := by
  have : 0 < st.slots.countP Option.isSome := by
    rw [List.countP_pos_iff]
    exact ⟨some s, List.mem_of_getElem? hj, rfl⟩
  rw [h.cnt]
  omega

theorem count_used {done : List (Nat × Bytes)} {st : St} (h : Inv done st) (hc : st.count ≠ 0) :
    ∃ (j : Nat) (s : Slot), st.slots[j]? = some (some s) := by
  have : 0 < st.slots.countP Option.isSome := by
    have := h.cnt
    omega
  obtain ⟨a, ha, hs⟩ := List.countP_pos_iff.mp this
  cases a with
  | none => cases hs
  | some s =>
    obtain ⟨j, hj⟩ := List.mem_iff_getElem?.mp ha
    exact ⟨j, s, hj⟩

theorem timer_only {done : List (Nat × Bytes)} {st : St} (b : Bool) (h : Inv done st) :
    Inv done { st with timer := b } := ⟨h.len, h.cnt, h.uniq, h.held, h.over, h.fresh⟩

theorem distinct_of {done : List (Nat × Bytes)} (h : (done.map Prod.fst).Nodup) : Distinct done := by
  induction done with
  | nil => intro k d d' h1; cases h1
  | cons a l ih =>
    rw [List.map_cons, List.nodup_cons] at h
    intro k d d' h1 h2
    rcases List.mem_cons.mp h1 with e1 | e1 <;> rcases List.mem_cons.mp h2 with e2 | e2
    · rw [← e2] at e1; injection e1
    · exfalso; apply h.1; rw [← e1]; exact List.mem_map.mpr ⟨_, e2, rfl⟩
    · exfalso; apply h.1; rw [← e2]; exact List.mem_map.mpr ⟨_, e1, rfl⟩
    · exact ih h.2 k d d' e1 e2

theorem sendInfo_inv (done : List (Nat × Bytes)) (k : Nat) (d : Bytes)
    (hd : (((k, d) :: done).map Prod.fst).Nodup) (ready : Bool) (outs : Nat → Snd) (st : St)
    (h : Inv done st) (ht : TimerOk st) (hc : st.count < 8) :
    ∃ st', sendInfo k d ready outs st = some st' ∧ Inv ((k, d) :: done) st' ∧ TimerOk st' := by
  unfold sendInfo
  have hk : ∀ d', (k, d') ∉ done := by
    intro d' hm
    rw [List.map_cons, List.nodup_cons] at hd
    exact hd.1 (List.mem_map.mpr ⟨_, hm, rfl⟩)
  cases hf : lastFree st.slots maxClients with
  | none =>
    exfalso
    have := all_used st.slots h.len (lastFree_none _ _ hf)
    have := h.cnt
    omega
  | some i =>
    have hi := lastFree_spec _ _ _ hf
    have hp := place_inv done st h i k d hi hk
    simp only []
    obtain ⟨p, hpe⟩ : ∃ p, p = St.mk (st.slots.set i (some (Slot.mk k d 0))) (st.count + 1) st.timer st.log :=
      ⟨_, rfl⟩
    rw [← hpe] at hp ⊢
    obtain ⟨w1, w2, w3⟩ := write_inv _ (distinct_of hd) ready outs p hp
    have hmono := write_mono ready outs p
    obtain ⟨q, hq⟩ : ∃ q, q = writeData ready outs p := ⟨_, rfl⟩
    rw [← hq] at w1 w2 w3 hmono ⊢
    have hpc : p.count ≠ 0 := by
      have h1 : p.count = st.count + 1 := by rw [hpe]
      have h2 := h.cnt
      omega
    have hpt : p.timer = st.timer := by rw [hpe]
    refine ⟨_, rfl, ?_⟩
    unfold startTimer
    by_cases hz : st.count = 0
    · have hst : st.timer = false := by
        cases hb : st.timer with
        | false => rfl
        | true => exact absurd hz (ht.mp hb)
      have hqt : q.timer = false := by
        rcases w2 with w2 | w2
        · rw [w2, hpt, hst]
        · exact w2.1
      have huse : used q.slots i = true ↔ q.count ≠ 0 := by
        constructor
        · intro hu
          unfold used at hu
          split at hu
          · rename_i s hs
            exact count_pos w1 hs
          · cases hu
        · intro hqc
          obtain ⟨j, s, hj⟩ := count_used w1 hqc
          obtain ⟨s', hs'⟩ := hmono j s hj
          have hji : j = i := by
            rw [hpe] at hs'
            rcases get_set hs' with ⟨e, _⟩ | ⟨_, e⟩
            · exact e
            · exact absurd hz (count_pos h e)
          subst hji
          unfold used
          rw [hj]
      rw [show (decide (st.count = 0) && used q.slots i) = used q.slots i from by simp [hz]]
      cases hu : used q.slots i with
      | true =>
        rw [if_pos rfl]
        refine ⟨timer_only true w1, ?_⟩
        exact ⟨fun _ => huse.mp hu, fun _ => rfl⟩
      | false =>
        rw [if_neg (by decide)]
        refine ⟨w1, ?_⟩
        constructor
        · intro hx; rw [hqt] at hx; cases hx
        · intro hx; have := huse.mpr hx; rw [hu] at this; cases this
    · have hst : st.timer = true := ht.mpr hz
      rw [show (decide (st.count = 0) && used q.slots i) = false from by simp [hz], if_neg (by decide)]
      refine ⟨w1, ?_⟩
      constructor
      · intro hx hqc
        rw [w3 hpc hqc] at hx
        cases hx
      · intro hx
        rcases w2 with w2 | w2
        · rw [w2, hpt, hst]
        · exact absurd w2.2 hx

theorem run_inv : ∀ (os : List Op) (done : List (Nat × Bytes)) (st : St),
    Inv done st → TimerOk st → ((((requests os).reverse ++ done).map Prod.fst).Nodup) →
    ∃ st', run os st = some st' ∧ Inv ((requests os).reverse ++ done) st' ∧ TimerOk st'
  | [], done, st, h, ht, _ => ⟨st, rfl, h, ht⟩
  | .tick r o :: os, done, st, h, ht, hn => by
    have hn' : (((requests os).reverse ++ done).map Prod.fst).Nodup := hn
    have hd : (done.map Prod.fst).Nodup := by
      rw [List.map_append] at hn'
      exact (List.nodup_append.mp hn').2.1
    unfold run step
    simp only []
    by_cases hb : st.timer = true
    · rw [if_pos hb]
      obtain ⟨w1, w2, w3⟩ := write_inv done (distinct_of hd) r o st h
      have hc := ht.mp hb
      refine run_inv os done _ w1 ?_ hn'
      constructor
      · intro hx hqc
        rw [w3 hc hqc] at hx
        cases hx
      · intro hx
        rcases w2 with w2 | w2
        · rw [w2, hb]
        · exact absurd w2.2 hx
    · rw [if_neg hb]
      exact run_inv os done st h ht hn'
  | .request k d r o :: os, done, st, h, ht, hn => by
    have he : (requests (.request k d r o :: os)).reverse ++ done = (requests os).reverse ++ ((k, d) :: done) := by
      simp [requests]
    rw [he] at hn ⊢
    have hd : (((k, d) :: done).map Prod.fst).Nodup := by
      rw [List.map_append] at hn
      exact (List.nodup_append.mp hn).2.1
    have hk : ∀ d', (k, d') ∉ done := by
      intro d' hm
      rw [List.map_cons, List.nodup_cons] at hd
      exact hd.1 (List.mem_map.mpr ⟨_, hm, rfl⟩)
    unfold run step
    simp only []
    by_cases hb : (maxClients : Int) ≤ st.count
    · rw [if_pos hb]
      exact run_inv os ((k, d) :: done) _ (refuse_inv done st h k d hk) ht hn
    · rw [if_neg hb]
      obtain ⟨st', g1, g2, g3⟩ := sendInfo_inv done k d hd r o st h ht (by
        have : (maxClients : Int) = 8 := by decide
        omega)
      rw [g1]
      exact run_inv os ((k, d) :: done) st' g2 g3 hn

theorem init_inv : Inv [] init ∧ TimerOk init := by
  have hnone : ∀ (i : Nat) (s : Slot), init.slots[i]? ≠ some (some s) := by
    intro i s h
    have := List.mem_of_getElem? h
    have := List.eq_of_mem_replicate this
    cases this
  refine ⟨⟨by decide, by decide, ?_, ?_, ?_, ?_⟩, ?_⟩
  · intro i j s t hs; exact absurd hs (hnone i s)
  · intro i s hs; exact absurd hs (hnone i s)
  · intro k d h; cases h
  · intro k _; rfl
  · constructor
    · intro h; cases h
    · intro h; exact absurd rfl h

end Verif.InfoOut
