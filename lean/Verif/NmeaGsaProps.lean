import Verif.NmeaGsaModel

/-!
# C154: the satellites in use
-/

namespace Verif.NmeaGsa

/-- The satellites of a sentence: the entries that are not 0. -/
def sats (prn : List Nat) : List Nat := prn.filter (fun p => decide (p ≠ 0))

private theorem sats_cons0 (ps : List Nat) : sats (0 :: ps) = sats ps := rfl

private theorem sats_cons (p : Nat) (ps : List Nat) (h : p ≠ 0) : sats (p :: ps) = p :: sats ps := by
  unfold sats
  rw [List.filter_cons_of_pos (by simpa using h)]

private theorem store_ok (prn : List Nat) (i : Nat) (u : Nat → Nat) (c : Nat) (h : i + prn.length ≤ 72) :
    (store prn i u c).2 = c + (sats prn).length ∧
    ∀ j, (store prn i u c).1 j = if i ≤ j ∧ j < i + (sats prn).length then (sats prn).getD (j - i) 0 else u j := by
  induction prn generalizing i u c with
  | nil =>
    refine ⟨rfl, fun j => ?_⟩
    have : (sats []).length = 0 := rfl
    rw [this, if_neg (by omega)]
    rfl
  | cons p ps ih =>
    simp only [List.length_cons] at h
    unfold store
    rw [if_pos (show i < 72 by omega)]
    by_cases hp : p = 0
    · subst hp
      rw [if_neg (by simp), sats_cons0]
      exact ih i u c (by omega)
    · rw [if_pos hp, sats_cons p ps hp]
      obtain ⟨e1, e2⟩ := ih (i + 1) (fun j => if j = i then p else u j) (c + 1) (by omega)
      refine ⟨by rw [e1, List.length_cons]; omega, fun j => ?_⟩
      rw [e2 j, List.length_cons]
      by_cases hj : j = i
      · subst hj
        rw [if_neg (by omega), if_pos (by omega)]
        simp
      · by_cases hk : i + 1 ≤ j ∧ j < i + 1 + (sats ps).length
        · rw [if_pos hk, if_pos (by omega)]
          rw [show j - i = (j - (i + 1)) + 1 by omega, List.getD_cons_succ]
        · rw [if_neg hk, if_neg hj, if_neg (by omega)]

/-- The satellites of a sentence become the first ones of the information, in their order, with their number; after them the entries
are as before, but for the first. -/
theorem C154_to_partial (k : Pack) (n : Info) (hl : k.prn.length = 12) (hu : k.pUse = true) :
    (toInfo k n).count = (sats k.prn).length ∧ (toInfo k n).pCount = true ∧ (toInfo k n).pUse = true ∧
    (∀ j, j < (sats k.prn).length → (toInfo k n).use j = (sats k.prn).getD j 0) ∧
    (∀ j, (sats k.prn).length ≤ j → (toInfo k n).use j = if j = 0 then 0 else n.use j) := by
  have hn : ∀ n1 : Info, (if k.pFix = true then { n1 with fix := k.fix, pFix := true } else n1).use = n1.use := by
    intro n1; split <;> rfl
  have hn' : (if k.pSig = true ∧ n.sig = 0 then { n with sig := if k.sig = 77 then 7 else 1, pSig := true } else n).use = n.use := by
    split <;> rfl
  obtain ⟨e1, e2⟩ := store_ok k.prn 0 (fun j => if j = 0 then 0 else n.use j) 0 (by omega)
  unfold toInfo
  simp only []
  rw [if_pos hu]
  simp only []
  rw [hn, hn']
  refine ⟨by rw [e1]; omega, trivial, trivial, fun j hj => ?_, fun j hj => ?_⟩
  · rw [e2 j, if_pos (by omega)]
    rfl
  · rw [e2 j, if_neg (by omega)]

private def z : Info := ⟨false, false, false, false, 0, 1, fun _ => 0, 0⟩
private def k4 : Pack := ⟨true, true, true, 65, 3, [5, 0, 7, 8, 9, 0, 0, 0, 0, 0, 0, 0]⟩
private def k1 : Pack := ⟨true, true, true, 65, 3, [2, 0, 0, 0, 0, 0, 0, 0, 0, 0, 0, 0]⟩

example : (toInfo k4 z).count = 4 ∧ (List.range 6).map (toInfo k4 z).use = [5, 7, 8, 9, 0, 0] := by decide

/-- The satellites of an older sentence stay after those of a newer one that has fewer, and are sent on as satellites in use. -/
theorem C154_to_negation : (toInfo k1 (toInfo k4 z)).count = 1 ∧ (List.range 5).map (toInfo k1 (toInfo k4 z)).use = [2, 7, 8, 9, 0] ∧
    sats (fromInfo (toInfo k1 (toInfo k4 z))).prn = [2, 7, 8, 9] := by decide

/-- The satellites that an entry shows after a number of sentences: those of the last one that had so many. -/
def shown (j : Nat) : List (List Nat) → Nat
  | [] => 0
  | l :: ls => if j < l.length then l.getD j 0 else if j = 0 then 0 else shown j ls

/-- After any sentences, the last first, every entry but the first is of the last sentence that had enough satellites. -/
theorem C154_history (ks : List Pack) (h : ∀ k ∈ ks, k.prn.length = 12 ∧ k.pUse = true) (n : Info) (hn : ∀ j, n.use j = 0) (j : Nat) :
    (ks.foldr toInfo n).use j = shown j (ks.map (fun k => sats k.prn)) := by
  induction ks with
  | nil => exact hn j
  | cons k ks ih =>
    have ih' := ih (fun x hx => h x (List.mem_cons_of_mem _ hx))
    have hk := h k (by simp)
    obtain ⟨_, _, _, h4, h5⟩ := C154_to_partial k (ks.foldr toInfo n) hk.1 hk.2
    show (toInfo k (ks.foldr toInfo n)).use j = if j < (sats k.prn).length then _ else _
    by_cases c : j < (sats k.prn).length
    · rw [if_pos c, h4 j c]
    · rw [if_neg c, h5 j (by omega), ih']

example : shown 2 [[2], [5, 7, 8, 9], [1, 2, 3]] = 8 := by decide

private theorem gather_ok (u : Nat → Nat) (n i : Nat) (acc : List Nat) (ha : acc.length ≤ 12) :
    gather u n i acc = (acc ++ sats ((List.range' i n).map u)).take 12 := by
  induction n generalizing i acc with
  | zero =>
    show acc = _
    simp only [List.range'_zero, List.map_nil]
    rw [show sats [] = [] from rfl, List.append_nil, List.take_of_length_le ha]
  | succ n ih =>
    unfold gather
    rw [List.range'_succ, List.map_cons]
    by_cases c : acc.length < 12
    · rw [if_pos c]
      by_cases hu : u i = 0
      · rw [if_neg (by simpa using hu), ih (i + 1) acc ha, hu, sats_cons0]
      · rw [if_pos hu, ih (i + 1) _ (by rw [List.length_append, List.length_singleton]; omega), sats_cons _ _ hu, List.append_assoc]
        rfl
    · rw [if_neg c, List.take_append_of_le_length (by omega), List.take_of_length_le ha]

private theorem sats_sats (l : List Nat) : sats (sats l) = sats l := by
  unfold sats
  rw [List.filter_filter]
  simp

private theorem sats_app (a b : List Nat) : sats (a ++ b) = sats a ++ sats b := List.filter_append ..

private theorem sats_zero (n : Nat) : sats (List.replicate n 0) = [] := by
  induction n with
  | zero => rfl
  | succ n ih => rw [List.replicate_succ, sats_cons0, ih]

private theorem sats_all (l : List Nat) (h : ∀ x ∈ l, x ≠ 0) : sats l = l := by
  unfold sats
  rw [List.filter_eq_self]
  intro x hx
  simpa using h x hx

private theorem mem_sats (l : List Nat) (x : Nat) (h : x ∈ sats l) : x ≠ 0 := by
  unfold sats at h
  simpa using (List.mem_filter.mp h).2

/-- A sentence is made of the first 12 satellites in use, in their order, and has 12 entries. -/
theorem C154_from (n : Info) (h : n.pUse = true) :
    sats (fromInfo n).prn = (sats ((List.range 72).map n.use)).take 12 ∧ (fromInfo n).prn.length = 12 ∧ (fromInfo n).pUse = true := by
  have g := gather_ok n.use 72 0 [] (by simp)
  rw [List.nil_append, ← List.range_eq_range'] at g
  have e : (fromInfo n).prn = gather n.use 72 0 [] ++ List.replicate (12 - (gather n.use 72 0 []).length) 0 := by
    unfold fromInfo
    simp only []
    rw [if_pos h]
  refine ⟨?_, ?_, h⟩
  · rw [e, sats_app, sats_zero, List.append_nil, g]
    exact sats_all _ (fun x hx => mem_sats _ x (List.mem_of_mem_take hx))
  · rw [e, List.length_append, List.length_replicate]
    have : (gather n.use 72 0 []).length ≤ 12 := by rw [g, List.length_take]; omega
    omega

example : (fromInfo (toInfo k4 z)).prn = [5, 7, 8, 9, 0, 0, 0, 0, 0, 0, 0, 0] := by decide

private theorem map_prefix (l : List Nat) (u : Nat → Nat) (hl : l.length ≤ 72) (h1 : ∀ j, j < l.length → u j = l.getD j 0)
    (h2 : ∀ j, l.length ≤ j → u j = 0) : (List.range 72).map u = l ++ List.replicate (72 - l.length) 0 := by
  apply List.ext_getElem
  · simp; omega
  · intro j a b
    simp only [List.getElem_map, List.getElem_range]
    by_cases c : j < l.length
    · rw [h1 j c, List.getElem_append_left c, List.getD_eq_getElem?_getD, List.getElem?_eq_getElem c]
      rfl
    · rw [h2 j (by omega), List.getElem_append_right (by omega), List.getElem_replicate]

/-- If no satellites were in use before, a sentence comes back from the information with the same satellites, the same mode and the
same fix. -/
theorem C154_roundtrip_partial (k : Pack) (n : Info) (hl : k.prn.length = 12) (hu : k.pUse = true) (hs : k.pSig = true) (hf : k.pFix = true)
    (hm : k.sig = 65 ∨ k.sig = 77) (hn : ∀ j, n.use j = 0) (h0 : n.sig = 0) :
    sats (fromInfo (toInfo k n)).prn = sats k.prn ∧ (fromInfo (toInfo k n)).sig = k.sig ∧ (fromInfo (toInfo k n)).fix = k.fix ∧
    (fromInfo (toInfo k n)).pSig = true ∧ (fromInfo (toInfo k n)).pFix = true ∧ (fromInfo (toInfo k n)).pUse = true := by
  obtain ⟨_, _, h3, h4, h5⟩ := C154_to_partial k n hl hu
  have h5' : ∀ j, (sats k.prn).length ≤ j → (toInfo k n).use j = 0 := by
    intro j hj
    rw [h5 j hj, hn j]
    split <;> rfl
  have hlen : (sats k.prn).length ≤ 12 := by
    have := List.length_filter_le (fun p => decide (p ≠ 0)) k.prn
    unfold sats
    omega
  have e := map_prefix (sats k.prn) (toInfo k n).use (by omega) h4 h5'
  have e1 : (toInfo k n).pSig = true ∧ (toInfo k n).sig = (if k.sig = 77 then 7 else 1) ∧ (toInfo k n).pFix = true ∧
      (toInfo k n).fix = k.fix := by
    unfold toInfo
    simp only []
    rw [if_pos hu, if_pos hf, if_pos ⟨hs, h0⟩]
    exact ⟨rfl, rfl, rfl, rfl⟩
  have f := C154_from (toInfo k n) h3
  refine ⟨?_, ?_, ?_, e1.1, e1.2.2.1, h3⟩
  · rw [f.1, e, sats_app, sats_zero, List.append_nil, sats_sats, List.take_of_length_le hlen]
  · show (if (toInfo k n).pSig = true then (if (toInfo k n).sig = 7 then 77 else 65) else 0) = k.sig
    rw [if_pos e1.1, e1.2.1]
    rcases hm with q | q <;> rw [q] <;> rfl
  · show (if (toInfo k n).pFix = true then (toInfo k n).fix else 1) = k.fix
    rw [if_pos e1.2.2.1, e1.2.2.2]

example : k4.prn.length = 12 ∧ sats k4.prn = [5, 7, 8, 9] := by decide

private theorem noPrns_ok (l : List Nat) : noPrns l = true ↔ sats l = [] := by
  induction l with
  | nil => exact ⟨fun _ => rfl, fun _ => rfl⟩
  | cons p ps ih =>
    unfold noPrns
    by_cases c : p = 0
    · subst c
      rw [if_neg (by simp), sats_cons0]
      exact ih
    · rw [if_pos c, sats_cons p ps c]
      simp

/-- A sentence is accepted if it has all 17 fields, the mode is absent, A or M, and the fix is absent or from 1 to 3; what is absent is
not reported. -/
theorem C154_parse (tokens sig : Nat) (fix : Int) (prn : List Nat) :
    ((parse tokens sig fix prn).isSome = true ↔
      tokens = 17 ∧ (sig = 0 ∨ sig = 'A'.toNat ∨ sig = 'M'.toNat) ∧ (fix = 2147483647 ∨ (1 ≤ fix ∧ fix ≤ 3))) ∧
    ∀ k, parse tokens sig fix prn = some k → (k.pSig = true ↔ sig ≠ 0) ∧ (k.pFix = true ↔ fix ≠ 2147483647) ∧
      (k.pUse = true ↔ sats prn ≠ []) ∧ k.sig = sig ∧ k.prn = prn ∧ (1 ≤ k.fix ∧ k.fix ≤ 3) ∧ (k.pFix = true → k.fix = fix) := by
  have eA : 'A'.toNat = 65 := rfl
  have eM : 'M'.toNat = 77 := rfl
  rw [eA, eM]
  unfold parse
  constructor
  · by_cases c1 : tokens = 17
    · by_cases c2 : sig ≠ 0 ∧ sig ≠ 65 ∧ sig ≠ 77
      · rw [if_neg (by omega), if_pos c2]
        simp; omega
      · by_cases c3 : fix ≠ 2147483647 ∧ (fix < 1 ∨ fix > 3)
        · rw [if_neg (by omega), if_neg c2, if_pos c3]
          simp; omega
        · rw [if_neg (by omega), if_neg c2, if_neg c3]
          simp; omega
    · rw [if_pos c1]
      simp; omega
  · intro k h
    split at h
    · cases h
    · split at h
      · cases h
      · split at h
        · cases h
        · next c =>
          cases h
          refine ⟨by simp, by simp, ?_, rfl, rfl, ?_, ?_⟩
          · simp only [Bool.not_eq_true']
            rw [← Bool.not_eq_true, noPrns_ok]
          · simp only []
            split <;> omega
          · intro q
            simp only [decide_eq_true_eq] at q ⊢
            rw [if_pos q]

example : parse 17 65 3 [0, 4] = some ⟨true, true, true, 65, 3, [0, 4]⟩ ∧ parse 17 66 3 [0, 4] = none ∧ parse 17 65 4 [] = none := by decide

/-- The mode of the sentence counts only if no signal is known, and fields that are absent leave the information alone. -/
theorem C154_other (k : Pack) (n : Info) :
    (n.sig ≠ 0 ∨ k.pSig = false → (toInfo k n).sig = n.sig ∧ (toInfo k n).pSig = n.pSig) ∧
    (n.sig = 0 → k.pSig = true → (toInfo k n).sig = (if k.sig = 'M'.toNat then 7 else 1) ∧ (toInfo k n).pSig = true) ∧
    (k.pFix = false → (toInfo k n).fix = n.fix ∧ (toInfo k n).pFix = n.pFix) ∧
    (k.pFix = true → (toInfo k n).fix = k.fix ∧ (toInfo k n).pFix = true) ∧
    (k.pUse = false → (toInfo k n).use = n.use ∧ (toInfo k n).count = n.count ∧ (toInfo k n).pUse = n.pUse ∧
      (toInfo k n).pCount = n.pCount) := by
  have eM : 'M'.toNat = 77 := rfl
  rw [eM]
  unfold toInfo
  simp only []
  refine ⟨fun h => ?_, fun h1 h2 => ?_, fun h => ?_, fun h => ?_, fun h => ?_⟩
  · rw [if_neg (show ¬ (k.pSig = true ∧ n.sig = 0) by
      rintro ⟨a, b⟩
      rcases h with q | q
      · exact q b
      · rw [q] at a; cases a)]
    (repeat' split) <;> exact ⟨rfl, rfl⟩
  · rw [if_pos (show k.pSig = true ∧ n.sig = 0 from ⟨h2, h1⟩)]
    by_cases c : k.pUse = true <;> by_cases d : k.pFix = true <;> simp [c, d]
  · by_cases c : k.pUse = true <;> by_cases d : k.pSig = true ∧ n.sig = 0 <;> simp [c, d, h]
  · by_cases c : k.pUse = true <;> simp [c, h]
  · by_cases c : k.pFix = true <;> by_cases d : k.pSig = true ∧ n.sig = 0 <;> simp [c, d, h]

example : (toInfo k1 { z with sig := 2 }).sig = 2 ∧ (toInfo k1 z).sig = 1 := by decide

/-- What is not in the information is not in the sentence. -/
theorem C154_from_absent (n : Info) :
    (fromInfo n).pSig = n.pSig ∧ (fromInfo n).pFix = n.pFix ∧ (fromInfo n).pUse = n.pUse ∧
    (n.pSig = false → (fromInfo n).sig = 0) ∧ (n.pFix = false → (fromInfo n).fix = 1) ∧
    (n.pUse = false → (fromInfo n).prn = List.replicate 12 0) := by
  refine ⟨rfl, rfl, rfl, fun h => ?_, fun h => ?_, fun h => ?_⟩
  · unfold fromInfo; simp [h]
  · unfold fromInfo; simp [h]
  · unfold fromInfo; simp [h]

example : (fromInfo z).prn = List.replicate 12 0 := by decide

end Verif.NmeaGsa
