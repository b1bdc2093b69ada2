import Verif.NmeaGsvModel

/-!
# C148: the satellites in view survive the sentences that carry them
-/

namespace Verif.NmeaGsv

/-- The number of groups of four. -/
private theorem groups (n : Nat) : n ≤ 4 * sentencesCount n ∧ (0 < n → 4 * (sentencesCount n - 1) < n) ∧ 1 ≤ sentencesCount n := by
  unfold sentencesCount
  split
  · omega
  · split <;> omega

private theorem groups_le {n : Nat} (h : n ≤ 72) : sentencesCount n ≤ 18 := by
  unfold sentencesCount
  split
  · omega
  · split <;> omega

/-- The number of sentences is the least one, and at least 1, whose groups of four hold all satellites. -/
theorem C148_count (n k : Nat) : sentencesCount n ≤ k ↔ 1 ≤ k ∧ n ≤ 4 * k := by
  unfold sentencesCount
  split
  · omega
  · split <;> omega

example : sentencesCount 8 = 2 ∧ sentencesCount 9 = 3 := by decide

/-- What a sentence stores of a satellite. -/
private def keep (s : Sat) : Sat := if s.prn = 0 then zero else s

private theorem copy_ok (pv v : Nat → Sat) (s : Nat) (hs : s * 4 + 4 ≤ 72) :
    ∃ v', copyIn pv 0 (s * 4) 4 v = some v' ∧ ∀ j, v' j = if s * 4 ≤ j ∧ j < s * 4 + 4 then keep (pv (j - s * 4)) else v j := by
  unfold copyIn; rw [if_pos (by omega), if_pos (by omega)]
  unfold copyIn; rw [if_pos (by omega), if_pos (by omega)]
  unfold copyIn; rw [if_pos (by omega), if_pos (by omega)]
  unfold copyIn; rw [if_pos (by omega), if_pos (by omega)]
  unfold copyIn
  refine ⟨_, rfl, fun j => ?_⟩
  show (if j = s * 4 + 1 + 1 + 1 then keep (pv 3) else if j = s * 4 + 1 + 1 then keep (pv 2)
    else if j = s * 4 + 1 then keep (pv 1) else if j = s * 4 then keep (pv 0) else v j) = _
  by_cases h3 : j = s * 4 + 1 + 1 + 1
  · rw [if_pos h3, if_pos (by omega), show j - s * 4 = 3 from by omega]
  · rw [if_neg h3]
    by_cases h2 : j = s * 4 + 1 + 1
    · rw [if_pos h2, if_pos (by omega), show j - s * 4 = 2 from by omega]
    · rw [if_neg h2]
      by_cases h1 : j = s * 4 + 1
      · rw [if_pos h1, if_pos (by omega), show j - s * 4 = 1 from by omega]
      · rw [if_neg h1]
        by_cases h0 : j = s * 4
        · rw [if_pos h0, if_pos (by omega), show j - s * 4 = 0 from by omega]
        · rw [if_neg h0, if_neg (by omega)]

/-- What a pack with satellites does that passes the checks. -/
private theorem toInfo_view (k : Pack) (i i1 : Info) (h1 : takeCount k i = some i1) (hv : k.pView = true) (ho : viewOk k = true) :
    ∃ v, toInfo k i = some { i1 with view := v, pView := true, inProgress := decide (k.sentence ≠ k.sentences), mask := true } ∧
      ∀ j, v j = if j < (k.sentence - 1) * 4 then i1.view j
        else if j < k.sentence * 4 then keep (k.view (j - (k.sentence - 1) * 4))
        else if j < 72 then zero else i1.view j := by
  have ho' := ho
  unfold viewOk at ho'
  rw [decide_eq_true_eq] at ho'
  obtain ⟨a1, a2, _, a4, a5⟩ := ho'
  unfold toInfo
  rw [h1]
  simp only []
  rw [if_pos hv, if_neg (by rw [ho]; simp)]
  rw [show clearAfter (k.sentence * 4) i1.view =
    some (fun j => if k.sentence * 4 ≤ j ∧ j < 72 then zero else i1.view j) from if_pos (by omega)]
  simp only []
  obtain ⟨v', hv', hj⟩ := copy_ok k.view (fun j => if k.sentence * 4 ≤ j ∧ j < 72 then zero else i1.view j) (k.sentence - 1) (by omega)
  rw [hv']
  refine ⟨v', rfl, fun j => ?_⟩
  rw [hj]
  by_cases c1 : j < (k.sentence - 1) * 4
  · rw [if_neg (by omega), if_pos c1, if_neg (by omega)]
  · rw [if_neg c1]
    by_cases c2 : j < k.sentence * 4
    · rw [if_pos (by omega), if_pos c2]
    · rw [if_neg (by omega), if_neg c2]
      by_cases c3 : j < 72
      · rw [if_pos c3, if_pos (by omega)]
      · rw [if_neg c3, if_neg (by omega)]

/-- No pack, whatever its fields are, makes `nmeaGPGSVToInfo` touch memory outside of the array. -/
theorem C148_safe (k : Pack) (i : Info) : ∃ i', toInfo k i = some i' ∧ ∀ j, 72 ≤ j → i'.view j = i.view j := by
  cases h1 : takeCount k i with
  | none => exact ⟨i, by unfold toInfo; rw [h1], fun _ _ => rfl⟩
  | some i1 =>
    have hv1 : i1.view = i.view := by
      unfold takeCount at h1
      split at h1
      · split at h1
        · cases h1
        · cases h1; rfl
      · cases h1; rfl
    by_cases hv : k.pView = true
    · by_cases ho : viewOk k = true
      · obtain ⟨v, h2, h3⟩ := toInfo_view k i i1 h1 hv ho
        refine ⟨_, h2, fun j hj => ?_⟩
        unfold viewOk at ho
        rw [decide_eq_true_eq] at ho
        simp only []
        rw [h3, if_neg (by omega), if_neg (by omega), if_neg (by omega), hv1]
      · refine ⟨i1, ?_, fun j _ => by rw [hv1]⟩
        unfold toInfo; rw [h1]; simp only []
        rw [if_pos hv, if_pos (by simpa using ho)]
    · refine ⟨{ i1 with mask := true }, ?_, fun j _ => by rw [← hv1]⟩
      unfold toInfo; rw [h1]; simp only []
      rw [if_neg hv]

private theorem from_eq (i : Info) (s : Nat) (hc : i.pCount = true) (hv : i.pView = true) (hn : i.count ≠ 0)
    (hs : s < sentencesCount i.count) :
    fromInfo i s = ⟨true, true, sentencesCount i.count, s + 1, i.count,
      fun p => if p < 4 ∧ s * 4 + p < 72 then i.view (s * 4 + p) else zero⟩ := by
  unfold fromInfo
  rw [if_neg (by rw [hc]; simp [hn]), if_neg (by omega), if_pos hv]

private theorem all_append (a b : List Pack) (i : Info) : toInfoAll (a ++ b) i = (toInfoAll a i).bind (toInfoAll b) := by
  induction a generalizing i with
  | nil => rfl
  | cons k a ih =>
    simp only [List.cons_append]
    unfold toInfoAll
    cases toInfo k i with
    | none => rfl
    | some i' => simp only []; exact ih i'

/-- After the first `k` sentences of a list of satellites, whatever was there before: the satellites of these sentences are
there, and no others. -/
theorem C148_prefix (src dst : Info) (k : Nat) (hc : src.pCount = true) (hv : src.pView = true) (h0 : 0 < src.count)
    (h72 : src.count ≤ 72) (hk : 1 ≤ k) (hk' : k ≤ sentencesCount src.count) :
    ∃ r, toInfoAll ((packs src).take k) dst = some r ∧ r.count = src.count ∧ r.pCount = true ∧ r.pView = true ∧ r.mask = true ∧
      (r.inProgress = true ↔ k < sentencesCount src.count) ∧
      ∀ j, j < 72 → r.view j = if j < 4 * k ∧ (src.view j).prn ≠ 0 then src.view j else zero := by
  have hg := groups_le h72
  have hp : (packs src).take k = (List.range k).map (fromInfo src) := by
    unfold packs
    rw [if_pos hc, ← List.map_take, List.take_range, Nat.min_eq_left hk']
  rw [hp]
  clear hp
  induction k with
  | zero => omega
  | succ k ih =>
    rw [List.range_succ, List.map_append, all_append]
    have main : ∀ d : Info, (∀ j, j < 4 * k → d.view j = if (src.view j).prn ≠ 0 then src.view j else zero) →
        ∃ r, toInfo (fromInfo src k) d = some r ∧ r.count = src.count ∧ r.pCount = true ∧ r.pView = true ∧ r.mask = true ∧
          (r.inProgress = true ↔ k + 1 < sentencesCount src.count) ∧
          ∀ j, j < 72 → r.view j = if j < 4 * (k + 1) ∧ (src.view j).prn ≠ 0 then src.view j else zero := by
      intro d hd
      rw [from_eq src k hc hv (by omega) (by omega)]
      obtain ⟨v, h1, h2⟩ := toInfo_view ⟨true, true, sentencesCount src.count, k + 1, src.count,
        fun p => if p < 4 ∧ k * 4 + p < 72 then src.view (k * 4 + p) else zero⟩ d { d with count := src.count, pCount := true }
        (by unfold takeCount; rw [if_pos rfl, if_neg (show ¬ src.count > 72 by omega)]) rfl
        (by unfold viewOk; rw [decide_eq_true_eq]; exact ⟨show sentencesCount src.count ≠ 0 by omega, hg, rfl, Nat.succ_ne_zero k, hk'⟩)
      refine ⟨_, h1, rfl, rfl, rfl, rfl, ?_, fun j hj => ?_⟩
      · simp only [decide_eq_true_eq]; omega
      · simp only []
        rw [h2]
        simp only [Nat.add_sub_cancel]
        by_cases c1 : j < k * 4
        · rw [if_pos c1, hd j (by omega)]
          by_cases c : (src.view j).prn ≠ 0
          · rw [if_pos c, if_pos ⟨by omega, c⟩]
          · rw [if_neg c, if_neg (fun x => c x.2)]
        · rw [if_neg c1]
          by_cases c2 : j < (k + 1) * 4
          · rw [if_pos c2, if_pos (by omega), show k * 4 + (j - k * 4) = j from by omega]
            unfold keep
            by_cases c : (src.view j).prn = 0
            · rw [if_pos c, if_neg (fun x => x.2 c)]
            · rw [if_neg c, if_pos ⟨by omega, c⟩]
          · rw [if_neg c2, if_pos hj, if_neg (by omega)]
    have fin : ∀ d : Info, (some d).bind (toInfoAll [fromInfo src k]) = toInfo (fromInfo src k) d := by
      intro d
      show toInfoAll [fromInfo src k] d = _
      unfold toInfoAll
      cases toInfo (fromInfo src k) d with
      | none => rfl
      | some x => rfl
    by_cases hk0 : k = 0
    · subst hk0
      show ∃ r, (toInfoAll [] dst).bind (toInfoAll [fromInfo src 0]) = some r ∧ _
      rw [show toInfoAll [] dst = some dst from rfl, fin]
      exact main dst (fun j hj => by omega)
    · obtain ⟨d, g1, _, _, _, _, _, g7⟩ := ih (by omega) (by omega)
      rw [g1]
      show ∃ r, (some d).bind (toInfoAll [fromInfo src k]) = some r ∧ _
      rw [fin]
      refine main d (fun j hj => ?_)
      rw [g7 j (by omega)]
      by_cases c : (src.view j).prn ≠ 0
      · rw [if_pos ⟨hj, c⟩, if_pos c]
      · rw [if_neg (fun x => c x.2), if_neg c]

/-- All sentences together carry every satellite in view, and nothing of what was there before is left. -/
theorem C148_transfer (src dst : Info) (hc : src.pCount = true) (hv : src.pView = true) (h0 : 0 < src.count) (h72 : src.count ≤ 72) :
    ∃ r, toInfoAll (packs src) dst = some r ∧ r.count = src.count ∧ r.pCount = true ∧ r.pView = true ∧ r.inProgress = false ∧
      (∀ j, j < src.count → (src.view j).prn ≠ 0 → r.view j = src.view j) ∧
      ∀ j, j < 72 → r.view j ≠ zero → r.view j = src.view j ∧ j < 4 * sentencesCount src.count := by
  have hg := groups src.count
  obtain ⟨r, h1, h2, h3, h4, _, h6, h7⟩ := C148_prefix src dst (sentencesCount src.count) hc hv h0 h72 (by omega) (Nat.le_refl _)
  have ht : (packs src).take (sentencesCount src.count) = packs src := by
    apply List.take_of_length_le
    unfold packs
    rw [if_pos hc]; simp
  rw [ht] at h1
  refine ⟨r, h1, h2, h3, h4, ?_, fun j hj hp => ?_, fun j hj hz => ?_⟩
  · cases hx : r.inProgress with
    | false => rfl
    | true => exact absurd (h6.mp hx) (by omega)
  · rw [h7 j (by omega), if_pos ⟨by omega, hp⟩]
  · rw [h7 j hj] at hz ⊢
    split at hz
    · next c => rw [if_pos c]; exact ⟨rfl, c.1⟩
    · exact absurd rfl hz

private def seven : Info := ⟨true, true, 7, fun j => if j < 7 then ⟨j + 1, 10, 20, 30⟩ else zero, false, false⟩

private def old : Info := ⟨false, true, 0, fun _ => ⟨9, 9, 9, 9⟩, false, false⟩

example : ((toInfoAll (packs seven) old).map (fun r => (r.count, (r.view 0).prn, (r.view 6).prn, r.view 7, r.view 71))) =
    some (7, 1, 7, zero, zero) := by decide +kernel

/-- In another order satellites are lost: the first sentence clears those of the second. -/
theorem C148_order : ∃ r, toInfoAll (packs seven).reverse old = some r ∧ r.view 4 = zero ∧ (seven.view 4).prn = 5 := by
  have h : ((toInfoAll (packs seven).reverse old).map (fun r => r.view 4)) = some zero := by decide +kernel
  cases hx : toInfoAll (packs seven).reverse old with
  | none => rw [hx] at h; cases h
  | some r =>
    rw [hx] at h
    exact ⟨r, rfl, by simpa using h, rfl⟩

/-- The sentences made from any information are printed without leaving the array; together they print the satellites in view,
each once and in order, and each sentence passes the checks of the parser. -/
theorem C148_printed (i : Info) (h72 : i.count ≤ 72) :
    ∃ ls, (packs i).mapM generate = some ls ∧
      (i.pCount = true → i.pView = true → ls.flatten = (List.range i.count).map i.view) ∧
      (i.pCount = true → i.pView = true → 0 < i.count →
        ∀ k ∈ packs i, parseOk k.sentences k.sentence k.count (3 + 4 * printed k) = true) := by
  have hgen : ∀ k, printed k ≤ 4 → generate k = some ((List.range (printed k)).map k.view) := fun k h => if_pos h
  have hmap : ∀ ks : List Pack, (∀ k ∈ ks, printed k ≤ 4) →
      ks.mapM generate = some (ks.map (fun k => (List.range (printed k)).map k.view)) := by
    intro ks
    induction ks with
    | nil => intro _; rfl
    | cons k ks ih =>
      intro h
      rw [List.mapM_cons, hgen k (h k (by simp)), ih (fun x hx => h x (by simp [hx]))]
      rfl
  have hempty : printed empty = 0 := rfl
  by_cases hc : i.pCount = true
  · by_cases h0 : i.count = 0
    · have hp : packs i = [empty] := by
        unfold packs; rw [if_pos hc, h0]
        show [fromInfo i 0] = _
        unfold fromInfo; rw [if_pos (Or.inr h0)]
      rw [hp]
      refine ⟨_, hmap [empty] (by simp [hempty]), fun _ _ => ?_, fun _ _ h => by omega⟩
      rw [h0]; rfl
    · by_cases hv : i.pView = true
      · have hg := groups i.count
        have hpr : ∀ s, s < sentencesCount i.count → printed (fromInfo i s) = min 4 (i.count - s * 4) := by
          intro s hs
          rw [from_eq i s hc hv h0 hs]
          unfold printed
          rw [if_pos rfl]
          simp only []
          have := groups_le h72
          by_cases hl : s + 1 ≠ sentencesCount i.count
          · rw [if_pos hl]; omega
          · rw [if_neg hl]; simp only [if_true]; omega
        have hle : ∀ k ∈ packs i, printed k ≤ 4 := by
          intro k hk
          unfold packs at hk
          rw [if_pos hc] at hk
          obtain ⟨s, hs, rfl⟩ := List.mem_map.mp hk
          rw [hpr s (List.mem_range.mp hs)]; omega
        refine ⟨_, hmap _ hle, fun _ _ => ?_, fun _ _ _ k hk => ?_⟩
        · unfold packs
          rw [if_pos hc, List.map_map]
          have hpre : ∀ n, n ≤ sentencesCount i.count →
              ((List.range n).map ((fun k => (List.range (printed k)).map k.view) ∘ fromInfo i)).flatten =
                (List.range (min (n * 4) i.count)).map i.view := by
            intro n
            induction n with
            | zero => intro _; simp
            | succ n ih =>
              intro hn
              rw [List.range_succ, List.map_append, List.flatten_append, ih (by omega)]
              simp only [List.map_cons, List.map_nil, List.flatten_cons, List.flatten_nil, List.append_nil, Function.comp]
              have hlast : (List.range (printed (fromInfo i n))).map (fromInfo i n).view =
                  (List.range (min 4 (i.count - n * 4))).map (fun p => i.view (n * 4 + p)) := by
                rw [hpr n (by omega)]
                apply List.map_congr_left
                intro p hp
                have := List.mem_range.mp hp
                rw [from_eq i n hc hv h0 (by omega)]
                simp only []
                rw [if_pos (by omega)]
              rw [hlast]
              have hlt : n * 4 ≤ i.count := by omega
              rw [show min (n * 4) i.count = n * 4 from by omega,
                show min ((n + 1) * 4) i.count = n * 4 + min 4 (i.count - n * 4) from by omega,
                List.range_add, List.map_append, List.map_map]
              rfl
          rw [hpre _ (Nat.le_refl _), show min (sentencesCount i.count * 4) i.count = i.count from by omega]
        · unfold packs at hk
          rw [if_pos hc] at hk
          obtain ⟨s, hs, rfl⟩ := List.mem_map.mp hk
          have hs' := List.mem_range.mp hs
          have hp := hpr s hs'
          have := groups_le h72
          rw [hp]
          rw [from_eq i s hc hv h0 hs']
          unfold parseOk
          simp only []
          rw [if_neg (by omega), if_neg (by omega), if_neg (by omega), if_neg (by omega), if_neg (by omega), if_neg (by omega), if_neg]
          intro hx
          by_cases hl : s + 1 ≠ sentencesCount i.count
          · rw [if_pos hl] at hx; omega
          · rw [if_neg hl] at hx; omega
      · have hp : ∀ k ∈ packs i, printed k = 0 := by
          intro k hk
          unfold packs at hk
          obtain ⟨s, _, rfl⟩ := List.mem_map.mp hk
          unfold fromInfo
          split
          · rfl
          · split
            · rfl
            · rfl
        exact ⟨_, hmap _ (fun k hk => by rw [hp k hk]; omega), fun _ h => absurd h hv, fun _ h => absurd h hv⟩
  · have hp : ∀ k ∈ packs i, printed k = 0 := by
      intro k hk
      unfold packs at hk
      obtain ⟨s, _, rfl⟩ := List.mem_map.mp hk
      unfold fromInfo
      rw [if_pos (Or.inl (by simpa using hc))]; rfl
    exact ⟨_, hmap _ (fun k hk => by rw [hp k hk]; omega), fun h => absurd h hc, fun h => absurd h hc⟩

example : (packs seven).map printed = [4, 3] := by decide +kernel

/-- A sentence that passes the checks of the parser is stored. -/
theorem C148_accepted (k : Pack) (i : Info) (tokens : Nat) (hc : k.pCount = true) (hv : k.pView = true)
    (h : parseOk k.sentences k.sentence k.count tokens = true) :
    ∃ r, toInfo k i = some r ∧ r.mask = true ∧ r.count = k.count ∧
      ∀ p, p < 4 → (k.view p).prn ≠ 0 → r.view ((k.sentence - 1) * 4 + p) = k.view p := by
  unfold parseOk at h
  split at h
  · cases h
  next c1 => split at h
             · cases h
             next c2 => split at h
                        · cases h
                        next c3 => split at h
                                   · cases h
                                   next c4 => split at h
                                              · cases h
                                              next c5 => split at h
                                                         · cases h
                                                         next c6 =>
                                                          obtain ⟨v, h1, h2⟩ := toInfo_view k i { i with count := k.count, pCount := true }
                                                            (by unfold takeCount; rw [if_pos hc, if_neg c1]) hv
                                                            (by unfold viewOk; rw [decide_eq_true_eq]; omega)
                                                          refine ⟨_, h1, rfl, rfl, fun p hp hn => ?_⟩
                                                          simp only []
                                                          rw [h2, if_neg (by omega), if_pos (by omega)]
                                                          unfold keep
                                                          rw [show (k.sentence - 1) * 4 + p - (k.sentence - 1) * 4 = p from by omega, if_neg hn]

example : parseOk 2 2 7 15 = true ∧ parseOk 2 2 7 14 = false ∧ parseOk 2 3 7 19 = false := by decide

/-- The parser takes exactly these sentences. -/
theorem C148_parse (s k n t : Nat) : parseOk s k n t = true ↔
    n ≤ 72 ∧ s = max 1 ((n + 3) / 4) ∧ 1 ≤ k ∧ k ≤ s ∧ (t = 19 ∨ t = 3 + 4 * min 4 (n - 4 * (k - 1))) := by
  have hs : sentencesCount n = max 1 ((n + 3) / 4) := by
    unfold sentencesCount
    split
    · omega
    · split <;> omega
  unfold parseOk
  rw [hs]
  by_cases hk : k ≠ s
  · rw [if_pos hk]
    (repeat' split) <;> simp only [Bool.false_eq_true, false_iff, true_iff] <;> omega
  · rw [if_neg hk]
    (repeat' split) <;> simp only [Bool.false_eq_true, false_iff, true_iff] <;> omega

example : parseOk 1 1 0 3 = true ∧ parseOk 18 18 72 19 = true ∧ parseOk 19 19 73 7 = false := by decide

/-- A pack with more satellites than the array holds changes nothing; one whose sentence is none of the sentences of its
satellites changes at most their number. -/
theorem C148_refused (k : Pack) (i : Info) :
    (k.pCount = true → 72 < k.count → toInfo k i = some i) ∧
    (k.pCount = true → k.count ≤ 72 → k.pView = true →
      (k.sentence = 0 ∨ k.sentences < k.sentence ∨ k.sentences ≠ max 1 ((k.count + 3) / 4)) →
      toInfo k i = some { i with count := k.count, pCount := true }) ∧
    (k.pCount = false → k.pView = true →
      (k.sentence = 0 ∨ k.sentences < k.sentence ∨ 18 < k.sentences ∨ k.sentences ≠ max 1 ((k.count + 3) / 4)) →
      toInfo k i = some i) := by
  have hs : sentencesCount k.count = max 1 ((k.count + 3) / 4) := by
    unfold sentencesCount
    split
    · omega
    · split <;> omega
  refine ⟨fun hc hn => ?_, fun hc hn hv hb => ?_, fun hc hv hb => ?_⟩
  · unfold toInfo takeCount
    rw [if_pos hc, if_pos hn]
  · have ho : viewOk k = false := by
      unfold viewOk; rw [hs, decide_eq_false_iff_not]; omega
    unfold toInfo takeCount
    rw [if_pos hc, if_neg (by omega)]
    simp only []
    rw [if_pos hv, if_pos ho]
  · have ho : viewOk k = false := by
      unfold viewOk; rw [hs, decide_eq_false_iff_not]; omega
    unfold toInfo takeCount
    rw [if_neg (by rw [hc]; simp)]
    simp only []
    rw [if_pos hv, if_pos ho]

/-- Without the satellites only their number is carried, and those that were there stay. -/
theorem C148_number_only (src dst : Info) (s : Nat) (hc : src.pCount = true) (hv : src.pView = false) (h0 : 0 < src.count)
    (h72 : src.count ≤ 72) (hs : 4 * s < src.count) :
    toInfo (fromInfo src s) dst = some { dst with count := src.count, pCount := true, mask := true } := by
  have hlt : ¬ s ≥ sentencesCount src.count := by have := groups src.count; omega
  unfold fromInfo
  rw [if_neg (by rw [hc]; simp; omega), if_neg hlt, if_neg (by rw [hv]; simp)]
  unfold toInfo takeCount
  rw [if_pos rfl, if_neg (show ¬ src.count > 72 by omega)]
  rfl

example : ∃ src : Info, src.pCount = true ∧ src.pView = false ∧ src.count = 7 ∧
    (toInfo (fromInfo src 1) old).map (fun r => (r.count, r.view 5, r.inProgress)) = some (7, ⟨9, 9, 9, 9⟩, false) :=
  ⟨⟨true, false, 7, fun _ => zero, true, false⟩, rfl, rfl, rfl, by decide +kernel⟩

/-- A pack with satellites but without their number, in the second of two sentences, makes `nmeaGPGSVGenerate` read outside of
the four satellites. -/
theorem C148_generate_outside : ∃ k, generate k = none ∧ k.sentence = 2 ∧ k.sentences = 2 := by
  refine ⟨⟨false, true, 2, 2, 7, fun _ => zero⟩, ?_, rfl, rfl⟩
  have h : printed ⟨false, true, 2, 2, 7, fun _ => zero⟩ = 18446744073709551612 := by decide +kernel
  unfold generate
  rw [h, if_neg (by decide)]

end Verif.NmeaGsv
