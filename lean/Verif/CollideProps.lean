import Verif.CollideModel

/-!
# C155: the detection of duplicate nodes
-/

namespace Verif.Collide

/-- A number is reported if and only if it is 1 to 32767 after the number of the next message, in the arithmetic of 16 bits. -/
theorem C155_test (n c : Nat) (hn : n < 65536) (hc : c < 65536) :
    bad n c = true ↔ ∃ d, 1 ≤ d ∧ d ≤ 32767 ∧ n = (c + d) % 65536 := by
  unfold bad
  simp only [decide_eq_true_eq]
  constructor
  · intro h
    refine ⟨(n + 65536 - c) % 65536, ?_, ?_, ?_⟩
    · split at h <;> (try split at h) <;> omega
    · split at h <;> (try split at h) <;> omega
    · omega
  · rintro ⟨d, h1, h2, h3⟩
    split <;> (try split) <;> omega

example : bad 5 65530 = true ∧ bad 65530 5 = false := by decide

private theorem run_send (s : State) (hs : s.seq < 65536) (k : Nat) :
    run s (List.replicate k .send) = some ({ s with seq := (s.seq + k) % 65536 },
      (List.range k).map (fun i => Ev.sent ((s.seq + i) % 65536))) := by
  induction k generalizing s with
  | zero =>
    show some (s, []) = some ({ s with seq := (s.seq + 0) % 65536 }, [])
    rw [show (s.seq + 0) % 65536 = s.seq by omega]
  | succ k ih =>
    have hr : run s (List.replicate (k + 1) .send) =
        match run { s with seq := (s.seq + 1) % 65536 } (List.replicate k .send) with
        | none => none
        | some (s2, e2) => some (s2, [Ev.sent s.seq] ++ e2) := rfl
    rw [hr, ih _ (Nat.mod_lt _ (by decide)), List.range_succ_eq_map, List.map_cons, List.map_map]
    simp only []
    rw [show ((s.seq + 1) % 65536 + k) % 65536 = (s.seq + (k + 1)) % 65536 by omega, show (s.seq + 0) % 65536 = s.seq by omega]
    have e : (List.range k).map (fun i => Ev.sent (((s.seq + 1) % 65536 + i) % 65536)) =
        (List.range k).map ((fun i => Ev.sent ((s.seq + i) % 65536)) ∘ Nat.succ) := by
      apply List.map_congr_left
      intro i _
      show Ev.sent _ = Ev.sent _
      congr 1
      omega
    rw [e]
    rfl

private theorem orig_no (s : State) (t n : Nat) (h : ¬ bad n s.seq = true) : step s (.orig t n) = some (s, []) := if_neg h

private theorem orig_yes (s : State) (t n : Nat) (h : bad n s.seq = true) : step s (.orig t n) = some (collide s .orig t 0) := if_pos h

private theorem send_first (s : State) (hs : s.seq < 65536) (k : Nat) :
    ∃ es, run s (List.replicate (k + 1) .send) = some ({ s with seq := (s.seq + (k + 1)) % 65536 }, Ev.sent s.seq :: es) := by
  have := run_send s hs (k + 1)
  rw [List.range_succ_eq_map, List.map_cons, show (s.seq + 0) % 65536 = s.seq by omega] at this
  exact ⟨_, this⟩

/-- A message of its own that is one of the last 32768 is never taken for one of another node. -/
theorem C155_own_partial (s : State) (hs : s.seq < 65536) (k t : Nat) (h1 : 1 ≤ k) (h2 : k ≤ 32768) :
    ∃ s' es, run s (List.replicate k .send) = some (s', Ev.sent s.seq :: es) ∧ step s' (.orig t s.seq) = some (s', []) := by
  match k, h1 with
  | k + 1, _ =>
    obtain ⟨es, e⟩ := send_first s hs k
    refine ⟨_, es, e, orig_no _ _ _ ?_⟩
    rw [C155_test _ _ hs (Nat.mod_lt _ (by decide))]
    rintro ⟨d, d1, d2, d3⟩
    omega

example : (init 70000).seq = 4464 := by decide

/-- Older ones are. -/
theorem C155_own_negation (s : State) (hs : s.seq < 65536) (t : Nat) :
    ∃ s' es, run s (List.replicate 32769 .send) = some (s', Ev.sent s.seq :: es) ∧ step s' (.orig t s.seq) = some (collide s' .orig t 0) := by
  obtain ⟨es, e⟩ := send_first s hs 32768
  refine ⟨_, es, e, orig_yes _ _ _ ?_⟩
  rw [C155_test _ _ hs (Nat.mod_lt _ (by decide))]
  exact ⟨32767, by omega, by omega, by omega⟩

/-- The number that comes next was not used yet, but a message of another node with it is not reported. -/
theorem C155_next_negation (s : State) (t : Nat) : step s (.orig t s.seq) = some (s, []) := by
  apply orig_no
  unfold bad
  simp

/-- The handlers after a sequence of steps: those that were added and not removed, in their order. -/
def registered : List Op → List Nat → List Nat
  | [], l => l
  | .add h :: os, l => registered os (l ++ [h])
  | .remove h :: os, l => registered os (l.filter (fun x => decide (x ≠ h)))
  | _ :: os, l => registered os l

private theorem erase_filter (l : List Nat) (h : Nat) (hl : l.Nodup) : l.erase h = l.filter (fun x => decide (x ≠ h)) := by
  rw [hl.erase_eq_filter]
  congr 1
  funext x
  by_cases c : x = h <;> simp [c]

private theorem step_handlers (s s1 : State) (o : Op) (e1 : List Ev) (hd : s.handlers.Nodup) (h : step s o = some (s1, e1)) :
    s1.handlers.Nodup ∧ ∀ os, registered (o :: os) s.handlers = registered os s1.handlers := by
  cases o with
  | send => cases h; exact ⟨hd, fun _ => rfl⟩
  | orig t n =>
    unfold step at h
    simp only [] at h
    split at h
    · cases h; exact ⟨hd, fun _ => rfl⟩
    · cases h; exact ⟨hd, fun _ => rfl⟩
  | hna a b => cases h; exact ⟨hd, fun _ => rfl⟩
  | mid a b => cases h; exact ⟨hd, fun _ => rfl⟩
  | timer => cases h; exact ⟨hd, fun _ => rfl⟩
  | add x =>
    unfold step at h
    simp only [] at h
    split at h
    · cases h
    · next hx =>
      cases h
      refine ⟨?_, fun _ => rfl⟩
      simp only []
      rw [List.nodup_append]
      refine ⟨hd, by simp, ?_⟩
      intro a ha b hb
      simp only [List.mem_singleton] at hb
      subst hb
      intro e
      exact hx (e ▸ ha)
  | remove x =>
    unfold step at h
    simp only [] at h
    split at h
    · cases h
      refine ⟨hd.erase x, fun os => ?_⟩
      simp only []
      rw [erase_filter _ _ hd]
      rfl
    · cases h

/-- After any steps the handlers are the registered ones, each once. -/
theorem C155_registered (s s' : State) (ops : List Op) (es : List Ev) (hd : s.handlers.Nodup) (h : run s ops = some (s', es)) :
    s'.handlers = registered ops s.handlers ∧ s'.handlers.Nodup := by
  induction ops generalizing s es with
  | nil => cases h; exact ⟨rfl, hd⟩
  | cons o os ih =>
    unfold run at h
    split at h
    · cases h
    · next s1 e1 hs =>
      split at h
      · cases h
      · next s2 e2 hr =>
        cases h
        have k := step_handlers s s1 o e1 hd hs
        have := ih s1 e2 k.1 hr
        exact ⟨by rw [k.2 os]; exact this.1, this.2⟩

example : registered [.add 3, .hna 1 2, .add 5, .add 7, .remove 5] [] = [3, 7] := by decide

/-- The calls of handlers that are seen. -/
def calls (es : List Ev) : List (Kind × Nat × Nat × Nat) :=
  es.filterMap (fun e => match e with | .call k h a b => some (k, h, a, b) | _ => none)

/-- The warnings of a kind that are seen. -/
def warns (k : Kind) (es : List Ev) : Nat := es.countP (fun e => decide (e = Ev.warn k))

/-- The collision that a step is. -/
def hit (s : State) : Op → Option (Kind × Nat × Nat)
  | .orig t n => if (n + 65536 - s.seq) % 65536 ∈ List.range' 1 32767 then some (.orig, t, 0) else none
  | .hna a b => some (.hna, a, b)
  | .mid a b => some (.mid, a, b)
  | _ => none

private theorem calls_map (k : Kind) (a b : Nat) (l : List Nat) :
    calls (l.map (fun h => Ev.call k h a b)) = l.map (fun h => (k, h, a, b)) := by
  induction l with
  | nil => rfl
  | cons x l ih =>
    simp only [List.map_cons]
    rw [← ih]
    rfl

private theorem calls_app (x y : List Ev) : calls (x ++ y) = calls x ++ calls y := List.filterMap_append ..

private theorem calls_collide (s : State) (k : Kind) (a b : Nat) :
    calls (collide s k a b).2 = s.handlers.map (fun h => (k, h, a, b)) := by
  unfold collide
  simp only []
  rw [calls_app, calls_map]
  split <;> rfl

private theorem calls_notice (s : State) (k : Kind) : calls (notice s k) = [] := by
  unfold notice
  split <;> rfl

private theorem hit_orig (s : State) (hs : s.seq < 65536) (t n : Nat) (hn : n < 65536) :
    hit s (.orig t n) = if bad n s.seq = true then some (.orig, t, 0) else none := by
  have e : (n + 65536 - s.seq) % 65536 ∈ List.range' 1 32767 ↔ bad n s.seq = true := by
    rw [C155_test n s.seq hn hs, List.mem_range'_1]
    constructor
    · intro h
      exact ⟨(n + 65536 - s.seq) % 65536, by omega, by omega, by omega⟩
    · rintro ⟨d, h1, h2, h3⟩
      omega
  show (if _ then _ else _) = _
  by_cases c : bad n s.seq = true
  · rw [if_pos c, if_pos (e.mpr c)]
  · rw [if_neg c, if_neg (fun q => c (e.mp q))]

/-- The number of a message has 16 bits. -/
def Fits : Op → Prop
  | .orig _ n => n < 65536
  | _ => True

/-- Every collision calls every registered handler once, in the order of registration, with its arguments; nothing else calls one. -/
theorem C155_calls (s s' : State) (o : Op) (es : List Ev) (hs : s.seq < 65536) (ho : Fits o) (h : step s o = some (s', es)) :
    calls es = match hit s o with
      | some (k, a, b) => s.handlers.map (fun x => (k, x, a, b))
      | none => [] := by
  cases o with
  | send => cases h; rfl
  | orig t n =>
    rw [hit_orig s hs t n ho]
    unfold step at h
    simp only [] at h
    split at h
    · next c =>
      rw [if_pos c]
      simp only [Option.some.injEq] at h
      rw [show es = (collide s .orig t 0).2 by rw [h]]
      exact calls_collide ..
    · next c =>
      rw [if_neg c]
      cases h
      rfl
  | hna a b =>
    unfold step at h
    simp only [Option.some.injEq] at h
    rw [show es = (collide s .hna a b).2 by rw [h]]
    exact calls_collide ..
  | mid a b =>
    unfold step at h
    simp only [Option.some.injEq] at h
    rw [show es = (collide s .mid a b).2 by rw [h]]
    exact calls_collide ..
  | timer =>
    cases h
    show calls (notice s .orig ++ notice s .hna ++ notice s .mid) = []
    rw [calls_app, calls_app, calls_notice, calls_notice, calls_notice]
    rfl
  | add x =>
    unfold step at h
    simp only [] at h
    split at h
    · cases h
    · cases h; rfl
  | remove x =>
    unfold step at h
    simp only [] at h
    split at h
    · cases h; rfl
    · cases h

example : hit (init 10) (.orig 1 12) = some (.orig, 1, 0) := by
  rw [hit_orig _ (by decide) _ _ (by decide)]
  decide

/-- The number of collisions of a kind in a sequence of steps. -/
def hits (k : Kind) : State → List Op → Nat
  | _, [] => 0
  | s, o :: os =>
    match step s o with
    | none => 0
    | some (s1, _) => (match hit s o with | some (k', _, _) => if k' = k then 1 else 0 | none => 0) + hits k s1 os

private theorem warns_app (k : Kind) (x y : List Ev) : warns k (x ++ y) = warns k x + warns k y := List.countP_append ..

private theorem warns_calls (k k' : Kind) (a b : Nat) (l : List Nat) : warns k (l.map (fun h => Ev.call k' h a b)) = 0 := by
  unfold warns
  rw [List.countP_eq_zero]
  intro e he
  obtain ⟨h, _, rfl⟩ := List.mem_map.mp he
  simp

private theorem warns_collide (s : State) (k k' : Kind) (a b : Nat) :
    warns k (collide s k' a b).2 = if k' = k ∧ (s.cnt k + 1) % 4294967296 < 10 then 1 else 0 := by
  unfold collide
  simp only []
  rw [warns_app, warns_calls]
  by_cases c : k' = k
  · subst c
    by_cases d : (s.cnt k' + 1) % 4294967296 < 10
    · rw [if_pos d, if_pos ⟨rfl, d⟩]
      simp [warns]
    · rw [if_neg d, if_neg (fun q => d q.2)]
      rfl
  · rw [if_neg (show ¬ (k' = k ∧ (s.cnt k + 1) % 4294967296 < 10) from fun q => c q.1)]
    split
    · have : ¬ Ev.warn k' = Ev.warn k := by intro q; injection q with q; exact c q
      simp [warns, this]
    · rfl

private theorem step_cnt (s s1 : State) (o : Op) (e1 : List Ev) (k : Kind) (hs : s.seq < 65536) (ho : Fits o) (ht : o ≠ .timer)
    (h : step s o = some (s1, e1)) :
    s1.seq < 65536 ∧
    ((match hit s o with | some (k', _, _) => if k' = k then 1 else 0 | none => 0) = 0 → s1.cnt k = s.cnt k ∧ warns k e1 = 0) ∧
    ((match hit s o with | some (k', _, _) => if k' = k then 1 else 0 | none => 0) ≠ 0 →
      s1.cnt k = (s.cnt k + 1) % 4294967296 ∧ warns k e1 = if (s.cnt k + 1) % 4294967296 < 10 then 1 else 0) := by
  have key : ∀ k' a b, (s1, e1) = collide s k' a b → s1.seq < 65536 ∧
      ((if k' = k then 1 else 0) = 0 → s1.cnt k = s.cnt k ∧ warns k e1 = 0) ∧
      ((if k' = k then 1 else 0) ≠ 0 →
        s1.cnt k = (s.cnt k + 1) % 4294967296 ∧ warns k e1 = if (s.cnt k + 1) % 4294967296 < 10 then 1 else 0) := by
    intro k' a b e
    have e1' : s1 = (collide s k' a b).1 := by rw [← e]
    have e2' : e1 = (collide s k' a b).2 := by rw [← e]
    rw [e2', warns_collide, e1']
    refine ⟨hs, fun q => ?_, fun q => ?_⟩
    · have c : ¬ k' = k := by intro c; rw [if_pos c] at q; cases q
      refine ⟨?_, if_neg (fun q => c q.1)⟩
      show (if k = k' then _ else s.cnt k) = s.cnt k
      rw [if_neg (fun q => c q.symm)]
    · have c : k' = k := by
        by_cases c : k' = k
        · exact c
        · rw [if_neg c] at q; exact absurd rfl q
      subst c
      refine ⟨?_, ?_⟩
      · show (if k' = k' then _ else _) = _
        rw [if_pos rfl]
      · by_cases d : (s.cnt k' + 1) % 4294967296 < 10
        · rw [if_pos d, if_pos ⟨rfl, d⟩]
        · rw [if_neg d, if_neg (fun q => d q.2)]
  cases o with
  | send =>
    cases h
    exact ⟨Nat.mod_lt _ (by decide), fun _ => ⟨rfl, by simp [warns]⟩, fun q => absurd rfl q⟩
  | orig t n =>
    rw [hit_orig s hs t n ho]
    unfold step at h
    simp only [] at h
    split at h
    · next c =>
      rw [if_pos c]
      simp only [Option.some.injEq] at h
      exact key .orig t 0 h.symm
    · next c =>
      rw [if_neg c]
      cases h
      exact ⟨hs, fun _ => ⟨rfl, rfl⟩, fun q => absurd rfl q⟩
  | hna a b =>
    unfold step at h
    simp only [Option.some.injEq] at h
    exact key .hna a b h.symm
  | mid a b =>
    unfold step at h
    simp only [Option.some.injEq] at h
    exact key .mid a b h.symm
  | timer => exact absurd rfl ht
  | add x =>
    unfold step at h
    simp only [] at h
    split at h
    · cases h
    · cases h; exact ⟨hs, fun _ => ⟨rfl, rfl⟩, fun q => absurd rfl q⟩
  | remove x =>
    unfold step at h
    simp only [] at h
    split at h
    · cases h; exact ⟨hs, fun _ => ⟨rfl, rfl⟩, fun q => absurd rfl q⟩
    · cases h

private theorem hit_le (s : State) (o : Op) (k : Kind) :
    (match hit s o with | some (k', _, _) => if k' = k then 1 else 0 | none => 0) ≤ 1 := by
  split
  · split <;> omega
  · omega

private theorem run_cnt (s s' : State) (ops : List Op) (es : List Ev) (k : Kind) (hs : s.seq < 65536) (ho : ∀ o ∈ ops, Fits o)
    (ht : ∀ o ∈ ops, o ≠ .timer) (h : run s ops = some (s', es)) (hb : s.cnt k + hits k s ops < 4294967296) :
    s'.cnt k = s.cnt k + hits k s ops ∧ warns k es + min (s.cnt k) 9 = min (s.cnt k + hits k s ops) 9 := by
  induction ops generalizing s es with
  | nil =>
    cases h
    refine ⟨rfl, ?_⟩
    show 0 + _ = _
    rw [Nat.zero_add]
    rfl
  | cons o os ih =>
    unfold run at h
    split at h
    · cases h
    · next s1 e1 hst =>
      split at h
      · cases h
      · next s2 e2 hr =>
        cases h
        obtain ⟨q0, q1, q2⟩ := step_cnt s s1 o e1 k hs (ho o (by simp)) (ht o (by simp)) hst
        have eh : hits k s (o :: os) = (match hit s o with | some (k', _, _) => if k' = k then 1 else 0 | none => 0) + hits k s1 os := by
          show (match step s o with | none => 0 | some (s1, _) => _) = _
          rw [hst]
        have hle := hit_le s o k
        rw [eh] at hb ⊢
        obtain ⟨m, hm⟩ : ∃ m, m = (match hit s o with | some (k', _, _) => if k' = k then 1 else 0 | none => 0) := ⟨_, rfl⟩
        rw [← hm] at hb q1 q2 hle ⊢
        rw [warns_app]
        by_cases c : m = 0
        · obtain ⟨a1, a2⟩ := q1 c
          have := ih s1 e2 q0 (fun x hx => ho x (List.mem_cons_of_mem _ hx)) (fun x hx => ht x (List.mem_cons_of_mem _ hx)) hr (by omega)
          omega
        · obtain ⟨a1, a2⟩ := q2 c
          have hmod : (s.cnt k + 1) % 4294967296 = s.cnt k + 1 := by omega
          rw [hmod] at a1 a2
          have := ih s1 e2 q0 (fun x hx => ho x (List.mem_cons_of_mem _ hx)) (fun x hx => ht x (List.mem_cons_of_mem _ hx)) hr (by omega)
          split at a2 <;> omega

/-- In an hour with `n` collisions of a kind there are `n` warnings of it but at most 9, and at its end a notice of `n − 10` skipped ones
if these are not none; the other kinds do not matter, and the next hour starts anew. -/
theorem C155_hour_partial (s s' : State) (ops : List Op) (es : List Ev) (k : Kind) (hs : s.seq < 65536) (ho : ∀ o ∈ ops, Fits o)
    (ht : ∀ o ∈ ops, o ≠ .timer) (h : run s ops = some (s', es)) (h0 : s.cnt k = 0) (hb : hits k s ops < 4294967296) :
    warns k es = min (hits k s ops) 9 ∧
    ∃ s2 e2, step s' .timer = some (s2, e2) ∧ s2.cnt k = 0 ∧ s2.handlers = s'.handlers ∧ s2.seq = s'.seq ∧
      ∀ n, Ev.skipped k n ∈ e2 ↔ 10 < hits k s ops ∧ n + 10 = hits k s ops := by
  obtain ⟨a1, a2⟩ := run_cnt s s' ops es k hs ho ht h (by omega)
  refine ⟨by omega, _, _, rfl, rfl, rfl, rfl, fun n => ?_⟩
  rw [h0, Nat.zero_add] at a1
  have one : ∀ k', Ev.skipped k n ∈ notice s' k' ↔ k = k' ∧ 10 < s'.cnt k' ∧ n + 10 = s'.cnt k' := by
    intro k'
    unfold notice
    split
    · simp only [List.mem_singleton, Ev.skipped.injEq]
      constructor
      · rintro ⟨x, y⟩; exact ⟨x, by omega, by omega⟩
      · rintro ⟨x, y, z⟩; exact ⟨x, by omega⟩
    · simp only [List.not_mem_nil, false_iff]
      rintro ⟨_, x, _⟩
      omega
  rw [List.mem_append, List.mem_append, one, one, one, ← a1]
  cases k <;> simp

example : ∃ s es, run (init 0) (List.replicate 3 (.hna 1 2)) = some (s, es) ∧ warns .hna es = 3 := ⟨_, _, rfl, by decide⟩

/-- One warning is lost: of 12 collisions 9 are told and 2 are said to be skipped, and of 10 collisions one is never mentioned. -/
theorem C155_hour_negation :
    (∃ s es s2, run (init 0) (List.replicate 12 (.hna 1 2)) = some (s, es) ∧ warns .hna es = 9 ∧
      step s .timer = some (s2, [Ev.skipped .hna 2])) ∧
    (∃ s es s2, run (init 0) (List.replicate 10 (.mid 1 2)) = some (s, es) ∧ warns .mid es = 9 ∧ step s .timer = some (s2, [])) :=
  ⟨⟨_, _, _, rfl, by decide, rfl⟩, ⟨_, _, _, rfl, by decide, rfl⟩⟩

end Verif.Collide
