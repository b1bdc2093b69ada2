import Verif.HistModel

/-!
# C43 — the packet history of the multicast plug-ins

The specification speaks only about events and real times: a checksum is `seen` when
it was recorded before and no clean-up has run since the end of its hold time.
-/

namespace Verif.Hist

open Verif.SchedTime

/-- what a chain says about a checksum -/
private def find (c : Nat) : List Entry → Option Nat
  | [] => none
  | e :: es => if e.crc = c then some e.timeOut else find c es

private def crcs (es : List Entry) : List Nat := es.map Entry.crc

private def Inv (t : Table) : Prop :=
  ∀ i, (crcs (t i)).Nodup ∧ ∀ e ∈ t i, hash e.crc = i

private theorem find_none {c : Nat} {es : List Entry} (h : c ∉ crcs es) : find c es = none := by
  induction es with
  | nil => rfl
  | cons e es ih =>
    have h1 : e.crc ≠ c := fun hh => h (by rw [← hh]; exact List.mem_cons_self ..)
    have h2 : c ∉ crcs es := fun hh => h (List.mem_cons_of_mem _ hh)
    rw [find, if_neg h1, ih h2]

private theorem walk_none {now c : Nat} {es : List Entry} : walk now c es = none ↔ find c es = none := by
  induction es with
  | nil => exact ⟨fun _ => rfl, fun _ => rfl⟩
  | cons e es ih =>
    rw [walk, find]
    by_cases h : e.crc = c
    · rw [if_pos h, if_pos h]; exact ⟨(fun h => (by cases h)), (fun h => (by cases h))⟩
    · rw [if_neg h, if_neg h, ← ih]
      cases walk now c es with
      | none => exact ⟨fun _ => rfl, fun _ => rfl⟩
      | some x => exact ⟨(fun h => (by cases h)), (fun h => (by cases h))⟩

private theorem walk_some {now c : Nat} {es es' : List Entry} (h : walk now c es = some es') :
    crcs es' = crcs es ∧ ∀ d, find d es' = if d = c then some (getTimestamp now holdTime) else find d es := by
  induction es generalizing es' with
  | nil => cases h
  | cons e es ih =>
    rw [walk] at h
    by_cases hc : e.crc = c
    · rw [if_pos hc] at h
      obtain rfl := Option.some.inj h
      refine ⟨by simp only [crcs, List.map_cons], fun d => ?_⟩
      rw [find, find]
      by_cases hd : d = c
      · rw [if_pos (by rw [hd]; exact hc), if_pos hd]
      · rw [if_neg (fun hh => hd (by rw [← hh]; exact hc)), if_neg hd,
          if_neg (fun hh => hd (by rw [← hh]; exact hc))]
    · rw [if_neg hc] at h
      cases hw : walk now c es with
      | none => rw [hw] at h; cases h
      | some x =>
        rw [hw] at h
        obtain rfl := Option.some.inj h
        obtain ⟨h1, h2⟩ := ih hw
        refine ⟨by simp only [crcs, List.map_cons] at h1 ⊢; rw [h1], fun d => ?_⟩
        rw [find, find]
        by_cases hd : e.crc = d
        · rw [if_pos hd, if_pos hd, if_neg (fun hh => hc (by rw [hd, hh]))]
        · rw [if_neg hd, if_neg hd, h2]

private theorem pruneChain_eq (now : Nat) (es kept : List Entry) :
    pruneChain now kept es = kept.reverse ++ es.filter (fun e => !isTimedOut now e.timeOut) := by
  induction es generalizing kept with
  | nil => simp [pruneChain]
  | cons e es ih =>
    rw [pruneChain]
    by_cases h : isTimedOut now e.timeOut = true
    · rw [if_pos h, ih, List.filter_cons_of_neg (by simp [h])]
    · rw [if_neg h, ih, List.filter_cons_of_pos (by simp [h])]
      simp

private theorem find_filter {p : Entry → Bool} {c : Nat} {es : List Entry} (hn : (crcs es).Nodup)
    {q : Nat → Bool} (hp : ∀ e, p e = q e.timeOut) :
    find c (es.filter p) = (find c es).filter q := by
  induction es with
  | nil => rfl
  | cons e es ih =>
    simp only [crcs, List.map_cons, List.nodup_cons] at hn
    rw [find]
    by_cases hc : e.crc = c
    · rw [if_pos hc]
      by_cases h : p e = true
      · rw [List.filter_cons_of_pos h, find, if_pos hc, Option.filter_some, if_pos (by rw [← hp]; exact h)]
      · rw [List.filter_cons_of_neg h, Option.filter_some, if_neg (by rw [← hp]; exact h)]
        refine find_none fun hm => hn.1 ?_
        rw [hc]
        simp only [crcs, List.mem_map, List.mem_filter] at hm ⊢
        obtain ⟨a, ha, hb⟩ := hm
        exact ⟨a, ha.1, hb⟩
    · rw [if_neg hc]
      by_cases h : p e = true
      · rw [List.filter_cons_of_pos h, find, if_neg hc, ih hn.2]
      · rw [List.filter_cons_of_neg h, ih hn.2]

private theorem hash_lt (c : Nat) : hash c < 4096 := by unfold hash; omega

private def look (t : Table) (c : Nat) : Option Nat := find c (t (hash c))

private theorem mark_spec {t : Table} (hi : Inv t) (now c : Nat) :
    Inv (checkAndMark now c t).1 ∧
    (∀ d, look (checkAndMark now c t).1 d = if d = c then some (getTimestamp now holdTime) else look t d) ∧
    (checkAndMark now c t).2 = (look t c).isSome := by
  unfold checkAndMark
  cases hw : walk now c (t (hash c)) with
  | some es =>
    obtain ⟨h1, h2⟩ := walk_some hw
    have hl : (look t c).isSome = true := by
      unfold look
      cases hf : find c (t (hash c)) with
      | none => rw [walk_none.2 hf] at hw; cases hw
      | some _ => rfl
    refine ⟨?_, ?_, hl.symm⟩
    · intro i
      show (crcs (setAt t (hash c) es i)).Nodup ∧ ∀ e ∈ setAt t (hash c) es i, _
      unfold setAt
      by_cases hx : i = hash c
      · rw [if_pos hx, h1]
        refine ⟨(hi (hash c)).1, fun e he => ?_⟩
        have : e.crc ∈ crcs (t (hash c)) := by rw [← h1]; exact List.mem_map_of_mem he
        obtain ⟨a, ha, hb⟩ := List.mem_map.1 this
        rw [← hb, hx]; exact (hi _).2 a ha
      · rw [if_neg hx]; exact hi i
    · intro d
      show find d (setAt t (hash c) es (hash d)) = _
      unfold setAt look
      by_cases hx : hash d = hash c
      · rw [if_pos hx, h2, hx]
      · rw [if_neg hx, if_neg (fun hh => hx (by rw [hh]))]
  | none =>
    have hf := walk_none.1 hw
    refine ⟨?_, ?_, by show false = _; unfold look; rw [hf]; rfl⟩
    · intro i
      show (crcs (setAt t (hash c) _ i)).Nodup ∧ ∀ e ∈ setAt t (hash c) _ i, _
      unfold setAt
      by_cases hx : i = hash c
      · rw [if_pos hx]
        refine ⟨?_, ?_⟩
        · simp only [crcs, List.map_cons, List.nodup_cons]
          refine ⟨fun hm => ?_, (hi _).1⟩
          have : ∀ es : List Entry, c ∈ es.map Entry.crc → find c es ≠ none := by
            intro es
            induction es with
            | nil => intro h; cases h
            | cons e es ih =>
              intro h
              rw [find]
              by_cases hc : e.crc = c
              · rw [if_pos hc]; exact fun h => by cases h
              · rw [if_neg hc]
                rw [List.map_cons, List.mem_cons] at h
                rcases h with h | h
                · exact absurd h.symm hc
                · exact ih h
          exact this _ hm hf
        · intro e he
          rw [List.mem_cons] at he
          rcases he with rfl | he
          · exact hx.symm
          · rw [hx]; exact (hi _).2 e he
      · rw [if_neg hx]; exact hi i
    · intro d
      show find d (setAt t (hash c) _ (hash d)) = _
      unfold setAt look
      by_cases hx : hash d = hash c
      · rw [if_pos hx, find]
        by_cases hd : d = c
        · rw [if_pos hd.symm, if_pos hd]
        · rw [if_neg (fun hh => hd hh.symm), if_neg hd, hx]
      · rw [if_neg hx, if_neg (fun hh => hx (by rw [hh]))]

private theorem prune_spec {t : Table} (hi : Inv t) (now : Nat) :
    Inv (prune now t) ∧
    ∀ d, look (prune now t) d = (look t d).filter (fun x => !isTimedOut now x) := by
  refine ⟨fun i => ?_, fun d => ?_⟩
  · unfold prune
    by_cases hx : i < 4096
    · rw [if_pos hx, pruneChain_eq, List.reverse_nil, List.nil_append]
      refine ⟨List.Nodup.sublist (List.Sublist.map _ List.filter_sublist) (hi i).1, fun e he => ?_⟩
      exact (hi i).2 e (List.mem_filter.1 he).1
    · rw [if_neg hx]; exact hi i
  · unfold look prune
    rw [if_pos (hash_lt d), pruneChain_eq, List.reverse_nil, List.nil_append]
    exact find_filter (hi _).1 (fun _ => rfl)

private theorem run_snoc (evs : List Ev) (e : Ev) : run (evs ++ [e]) = step (run evs) e := by
  unfold run; rw [List.foldl_append]; rfl

private theorem inv_run (evs : List Ev) : Inv (run evs) := by
  have : ∀ (evs : List Ev) (t : Table), Inv t → Inv (evs.foldl step t) := by
    intro evs
    induction evs with
    | nil => intro t h; exact h
    | cons e evs ih =>
      intro t h
      rw [List.foldl_cons]
      apply ih
      cases e with
      | mark T c => exact (mark_spec h _ _).1
      | prune T => exact (prune_spec h _).1
  exact this evs init (fun i => ⟨List.nodup_nil, fun e he => by cases he⟩)

private theorem answer_eq (evs : List Ev) (T c : Nat) : answer evs T c = (look (run evs) c).isSome :=
  (mark_spec (inv_run evs) _ _).2.2

private theorem look_foldl (c : Nat) (post : List Ev) (t : Table) (hi : Inv t)
    (hno : ∀ T, Ev.mark T c ∉ post) :
    look (post.foldl step t) c =
      (look t c).filter (fun x => post.all fun e => match e with
        | .mark _ _ => true | .prune T => !isTimedOut (T % W) x) := by
  induction post generalizing t with
  | nil => cases h : look t c <;> simp [h, Option.filter_some]
  | cons e post ih =>
    rw [List.foldl_cons]
    have hno' : ∀ T, Ev.mark T c ∉ post := fun T h => hno T (List.mem_cons_of_mem _ h)
    cases e with
    | mark T d =>
      rw [show step t (.mark T d) = (checkAndMark (T % W) d t).1 from rfl,
        ih _ (mark_spec hi _ _).1 hno', (mark_spec hi _ _).2.1,
        if_neg (fun h => hno T (by rw [h]; exact List.mem_cons_self ..))]
      simp
    | prune T =>
      rw [show step t (.prune T) = prune (T % W) t from rfl,
        ih _ (prune_spec hi _).1 hno', (prune_spec hi _).2]
      rw [Option.filter_filter]
      simp [List.all_cons]

private theorem timedOut_iff (T0 T : Nat) (h0 : T0 ≤ T) (h1 : T < T0 + 3000 + 2 ^ 31) :
    isTimedOut (T % W) (getTimestamp (T0 % W) holdTime) = false ↔ T < T0 + 3000 := by
  unfold isTimedOut getTimestamp holdTime
  split <;> simp only [decide_eq_false_iff_not] <;> omega

/-! ## C43 -/

/-- A checksum that was never recorded is never reported as seen, whatever other
checksums were recorded, refreshed or pruned before. -/
theorem C43_unknown_not_seen (evs : List Ev) (T c : Nat) (h : ∀ T', Ev.mark T' c ∉ evs) :
    answer evs T c = false := by
  rw [answer_eq]
  unfold run
  rw [look_foldl c evs init (fun i => ⟨List.nodup_nil, fun e he => by cases he⟩) h]
  rfl

/-- two checksums of the same chain -/
example : hash 4096 = hash 1 ∧ (∀ T', Ev.mark T' 4096 ∉ [Ev.mark 5 1, Ev.prune 9]) ∧
    answer [Ev.mark 5 1, Ev.prune 9] 10 1 = true := by
  refine ⟨by decide, ?_, by decide⟩
  intro T' h
  simp at h

/-- A checksum last recorded at real time `T0` is reported as seen exactly when no
clean-up has run since the end of its hold time, whatever happened before and whatever
other checksums were recorded in between.  The clean-ups in between run within 24 days
of the deadline (the range of the millisecond clock). -/
theorem C43_seen_iff (pre post : List Ev) (T0 T c : Nat)
    (hno : ∀ T', Ev.mark T' c ∉ post)
    (hp : ∀ T', Ev.prune T' ∈ post → T0 ≤ T' ∧ T' < T0 + 3000 + 2 ^ 31) :
    answer (pre ++ Ev.mark T0 c :: post) T c = true ↔ ∀ T', Ev.prune T' ∈ post → T' < T0 + 3000 := by
  rw [answer_eq]
  have e : run (pre ++ Ev.mark T0 c :: post) = post.foldl step (step (run pre) (.mark T0 c)) := by
    unfold run; rw [List.foldl_append]; rfl
  have hm := mark_spec (inv_run pre) (T0 % W) c
  rw [e, look_foldl c post (step (run pre) (.mark T0 c)) hm.1 hno]
  rw [show look (step (run pre) (.mark T0 c)) c = some (getTimestamp (T0 % W) holdTime) by
    rw [show step (run pre) (.mark T0 c) = (checkAndMark (T0 % W) c (run pre)).1 from rfl, hm.2.1, if_pos rfl]]
  rw [Option.filter_some]
  constructor
  · intro h T' hT
    by_cases hall : (post.all fun e => match e with
        | .mark _ _ => true
        | .prune T => !isTimedOut (T % W) (getTimestamp (T0 % W) holdTime)) = true
    · have := List.all_eq_true.1 hall _ hT
      simp only [Bool.not_eq_true'] at this
      exact (timedOut_iff T0 T' (hp T' hT).1 (hp T' hT).2).1 this
    · rw [if_neg hall] at h; cases h
  · intro h
    rw [if_pos]
    · rfl
    · rw [List.all_eq_true]
      intro e he
      cases e with
      | mark _ _ => rfl
      | prune T' =>
        simp only [Bool.not_eq_true']
        exact (timedOut_iff T0 T' (hp T' he).1 (hp T' he).2).2 (h T' he)

/-- the clock wraps between recording and pruning; a colliding checksum comes in between -/
example : answer [Ev.mark 4294967000 1, Ev.mark 4294967001 4096, Ev.prune (4294967000 + 2999)]
      (4294967000 + 9000) 1 = true ∧
    answer [Ev.mark 4294967000 1, Ev.mark 4294967001 4096, Ev.prune (4294967000 + 3000)]
      (4294967000 + 9000) 1 = false ∧
    answer [Ev.mark 4294967000 1, Ev.mark 4294967001 4096, Ev.prune (4294967000 + 3000)]
      (4294967000 + 9000) 4096 = true := by decide

/-- A clean-up never removes an entry inside its hold time, and an entry it keeps is
kept unchanged. -/
theorem C43_prune_exact (evs : List Ev) (T : Nat) (i : Nat) :
    (prune (T % W) (run evs)) i =
      if i < 4096 then (run evs i).filter (fun e => !isTimedOut (T % W) e.timeOut) else run evs i := by
  unfold prune
  by_cases hx : i < 4096
  · rw [if_pos hx, if_pos hx, pruneChain_eq, List.reverse_nil, List.nil_append]
  · rw [if_neg hx, if_neg hx]

example : (run [Ev.mark 0 1, Ev.mark 2000 4096, Ev.prune 3500]) 1 = [⟨4096, 5000⟩] := by decide

/-- Nothing stays behind: when every checksum was last recorded at least a hold time (and
less than 24 days) before a clean-up, the clean-up leaves the table empty. -/
theorem C43_prune_empties (evs : List Ev) (T : Nat)
    (h : ∀ T' c, Ev.mark T' c ∈ evs → T' + 3000 ≤ T ∧ T < T' + 3000 + 2 ^ 31) (i : Nat) :
    run (evs ++ [Ev.prune T]) i = [] := by
  have key : ∀ (evs : List Ev) (t : Table),
      (∀ T' c, Ev.mark T' c ∈ evs → T' + 3000 ≤ T ∧ T < T' + 3000 + 2 ^ 31) →
      (∀ i, (4096 ≤ i → t i = []) ∧ ∀ e ∈ t i, isTimedOut (T % W) e.timeOut = true) →
      ∀ i, (4096 ≤ i → evs.foldl step t i = []) ∧ ∀ e ∈ evs.foldl step t i, isTimedOut (T % W) e.timeOut = true := by
    intro evs
    induction evs with
    | nil => intro t _ h; exact h
    | cons e evs ih =>
      intro t hm ht
      rw [List.foldl_cons]
      refine ih _ (fun T' c hh => hm T' c (List.mem_cons_of_mem _ hh)) ?_
      cases e with
      | prune T1 =>
        intro i
        show (4096 ≤ i → prune (T1 % W) t i = []) ∧ ∀ e ∈ prune (T1 % W) t i, _
        unfold prune
        by_cases hx : i < 4096
        · rw [if_pos hx, pruneChain_eq, List.reverse_nil, List.nil_append]
          exact ⟨fun hh => by omega, fun e he => (ht i).2 e (List.mem_filter.1 he).1⟩
        · rw [if_neg hx]; exact ht i
      | mark T1 c =>
        have hb := hm T1 c (List.mem_cons_self ..)
        have hout : isTimedOut (T % W) (getTimestamp (T1 % W) holdTime) = true := by
          unfold isTimedOut getTimestamp holdTime
          split <;> simp only [decide_eq_true_iff] <;> omega
        have hwalk : ∀ es es' : List Entry, walk (T1 % W) c es = some es' →
            (∀ e ∈ es, isTimedOut (T % W) e.timeOut = true) → ∀ e ∈ es', isTimedOut (T % W) e.timeOut = true := by
          intro es
          induction es with
          | nil => intro es' h; cases h
          | cons a es ih =>
            intro es' h hall
            rw [walk] at h
            by_cases hc : a.crc = c
            · rw [if_pos hc] at h
              obtain rfl := Option.some.inj h
              intro e he
              rw [List.mem_cons] at he
              rcases he with rfl | he
              · exact hout
              · exact hall e (List.mem_cons_of_mem _ he)
            · rw [if_neg hc] at h
              cases hw : walk (T1 % W) c es with
              | none => rw [hw] at h; cases h
              | some x =>
                rw [hw] at h
                obtain rfl := Option.some.inj h
                intro e he
                rw [List.mem_cons] at he
                rcases he with rfl | he
                · exact hall _ (List.mem_cons_self ..)
                · exact ih x hw (fun e he => hall e (List.mem_cons_of_mem _ he)) e he
        intro i
        show (4096 ≤ i → (checkAndMark (T1 % W) c t).1 i = []) ∧ ∀ e ∈ (checkAndMark (T1 % W) c t).1 i, _
        unfold checkAndMark
        cases hw : walk (T1 % W) c (t (hash c)) with
        | some es =>
          show (4096 ≤ i → setAt t (hash c) es i = []) ∧ ∀ e ∈ setAt t (hash c) es i, _
          unfold setAt
          by_cases hx : i = hash c
          · rw [if_pos hx]
            exact ⟨fun hh => absurd (hash_lt c) (by omega), hwalk _ _ hw (ht (hash c)).2⟩
          · rw [if_neg hx]; exact ht i
        | none =>
          show (4096 ≤ i → setAt t (hash c) _ i = []) ∧ ∀ e ∈ setAt t (hash c) _ i, _
          unfold setAt
          by_cases hx : i = hash c
          · rw [if_pos hx]
            refine ⟨fun hh => absurd (hash_lt c) (by omega), fun e he => ?_⟩
            rw [List.mem_cons] at he
            rcases he with rfl | he
            · exact hout
            · exact (ht _).2 e he
          · rw [if_neg hx]; exact ht i
  rw [run_snoc]
  have hk := key evs init h (fun i => ⟨fun _ => rfl, fun e he => by cases he⟩) i
  show prune (T % W) (run evs) i = []
  unfold prune
  by_cases hx : i < 4096
  · rw [if_pos hx, pruneChain_eq, List.reverse_nil, List.nil_append, List.filter_eq_nil_iff]
    intro e he
    simp [hk.2 e he]
  · rw [if_neg hx]; exact hk.1 (by omega)

example : (∀ T' c, Ev.mark T' c ∈ [Ev.mark 10 1, Ev.mark 20 4096, Ev.mark 30 1] →
      T' + 3000 ≤ 3030 ∧ 3030 < T' + 3000 + 2 ^ 31) ∧
    run [Ev.mark 10 1, Ev.mark 20 4096, Ev.mark 30 1] 1 ≠ [] := by
  refine ⟨?_, by decide⟩
  intro T' c h
  simp at h
  omega

/-- Outside that range of the clock the answer is wrong: a clean-up that first runs more
than 24 days after the deadline takes the entry for a fresh one, and the next packet with
that checksum is dropped as a duplicate. -/
theorem C43_late_prune_keeps :
    ∃ T0 T1 T c, T0 + 3000 + 2 ^ 31 < T1 ∧ T1 ≤ T ∧
      answer [Ev.mark T0 c, Ev.prune T1] T c = true :=
  ⟨0, 2147487000, 2147487000, 7, by decide, by decide, by decide⟩

end Verif.Hist
