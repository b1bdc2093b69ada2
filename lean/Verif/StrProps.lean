import Verif.StrModel

/-!
# C41: bounded string copy and concatenation
-/

namespace Verif.Str

/-- the C string at the start of an object -/
def text (l : List Nat) : List Nat := l.takeWhile (· ≠ 0)

private theorem scan_spec : ∀ (n : Nat) (src : List Nat), 0 ∈ src → ∃ k, scan n src = some k ∧
    k ≤ n ∧ src.take k = (text src).take n ∧ ((text src).take n).length = k ∧ (∀ x ∈ src.take k, x ≠ 0) := by
  intro n
  induction n with
  | zero => intro src _; exact ⟨0, rfl, Nat.le_refl _, rfl, by simp, by simp⟩
  | succ n ih =>
    intro src h
    cases src with
    | nil => cases h
    | cons c cs =>
      by_cases hc : c = 0
      · exact ⟨0, by rw [scan, if_pos hc], by omega, by simp [text, hc], by simp [text, hc], by simp⟩
      · have h' : 0 ∈ cs := by
          rcases List.mem_cons.1 h with h | h
          · exact absurd h.symm hc
          · exact h
        obtain ⟨k, h1, h2, h3, h4, h5⟩ := ih cs h'
        have ht : text (c :: cs) = c :: text cs := by simp [text, hc]
        refine ⟨k + 1, by rw [scan, if_neg hc, h1]; rfl, by omega, ?_, ?_, ?_⟩
        · rw [ht, List.take_succ_cons, List.take_succ_cons, h3]
        · rw [ht, List.take_succ_cons, List.length_cons, h4]
        · rw [List.take_succ_cons]
          intro x hx
          rcases List.mem_cons.1 hx with rfl | hx
          · exact hc
          · exact h5 x hx

private theorem scan_le {n k : Nat} {src : List Nat} (h : scan n src = some k) : scan k src = some k := by
  induction n generalizing k src with
  | zero => cases h; rfl
  | succ n ih =>
    cases src with
    | nil => cases h
    | cons c cs =>
      rw [scan] at h
      by_cases hc : c = 0
      · rw [if_pos hc] at h; cases h; rfl
      · rw [if_neg hc] at h
        cases hs : scan n cs with
        | none => rw [hs] at h; cases h
        | some j =>
          rw [hs] at h
          cases h
          rw [scan, if_neg hc, ih hs]
          rfl

private theorem internal_eq (mem : List Nat) (off : Nat) (src : List Nat) (size : Nat) (hs : 0 ∈ src)
    (hfit : off + ((text src).take (size - 1)).length < mem.length) :
    internal mem off src size = some (mem.take off ++ (text src).take (size - 1) ++ [0] ++
      mem.drop (off + ((text src).take (size - 1)).length + 1)) := by
  obtain ⟨k, h1, h2, h3, h4, h5⟩ := scan_spec (size - 1) src hs
  unfold internal
  rw [h1, Option.bind_some]
  rw [h4] at hfit
  have hkl : (src.take k).length = k := by rw [h3, h4]
  unfold store
  rw [if_pos (by simp; omega), Option.bind_some]
  unfold strncpy
  rw [scan_le h1, Option.bind_some, Nat.sub_self, List.replicate_zero, List.append_nil]
  unfold store
  have hl : (List.take (off + k) mem ++ [0] ++ List.drop (off + k + [0].length) mem).length = mem.length := by
    simp; omega
  rw [if_pos (by rw [hl, hkl]; omega), hkl, h4, ← h3]
  congr 1
  simp only [List.length_singleton]
  have e1 : (List.take (off + k) mem ++ [0] ++ List.drop (off + k + 1) mem).take off = mem.take off := by
    rw [List.append_assoc, List.take_append_of_le_length (by simp; omega), List.take_take]
    congr 1; omega
  have e2 : (List.take (off + k) mem ++ [0] ++ List.drop (off + k + 1) mem).drop (off + k) =
      [0] ++ mem.drop (off + k + 1) := by
    rw [List.append_assoc, List.drop_left' (by simp; omega)]
  rw [e1, e2]
  simp [List.append_assoc]

private theorem text_nonzero (l : List Nat) : ∀ x ∈ text l, x ≠ 0 := by
  induction l with
  | nil => intro x hx; cases hx
  | cons c cs ih =>
    intro x hx
    unfold text at hx
    by_cases hc : c = 0
    · rw [List.takeWhile_cons_of_neg (by simpa using hc)] at hx; cases hx
    · rw [List.takeWhile_cons_of_pos (by simpa using hc)] at hx
      rcases List.mem_cons.1 hx with rfl | hx
      · exact hc
      · exact ih x hx

private theorem drop_tail (a mem : List Nat) (k : Nat) (h : a.length ≤ k) :
    (a ++ mem.drop a.length).drop k = mem.drop k := by
  rw [List.drop_append, List.drop_eq_nil_of_le h, List.nil_append, List.drop_drop]
  congr 1; omega

private theorem text_append (a b : List Nat) (h : ∀ x ∈ a, x ≠ 0) : text (a ++ [0] ++ b) = a := by
  induction a with
  | nil => simp [text]
  | cons c cs ih =>
    have hc : c ≠ 0 := h c List.mem_cons_self
    have := ih fun x hx => h x (List.mem_cons_of_mem _ hx)
    simp only [text, List.cons_append] at this ⊢
    rw [List.takeWhile_cons_of_pos (by simpa using hc), this]

/-- **C41 (strscpy).**  For every terminated source, every object and every size within it: nothing outside the first
`size` bytes changes, the result is terminated, and it is the longest prefix of the source that fits. -/
theorem C41_strscpy (mem src : List Nat) (size : Nat) (hs : 0 ∈ src) (hsize : size ≤ mem.length) :
    ∃ mem', strscpy mem src size = some mem' ∧ mem'.length = mem.length ∧ mem'.drop size = mem.drop size ∧
      (0 < size → 0 ∈ mem'.take size ∧ text mem' = (text src).take (size - 1)) ∧
      mem'.drop ((text src).length + 1) = mem.drop ((text src).length + 1) := by
  unfold strscpy
  by_cases h0 : size = 0
  · rw [if_pos h0]
    exact ⟨mem, rfl, rfl, rfl, fun h => by omega, rfl⟩
  · rw [if_neg h0]
    have hl : ((text src).take (size - 1)).length ≤ size - 1 := by simp; omega
    have hl' : ((text src).take (size - 1)).length ≤ (text src).length := by simp; omega
    rw [internal_eq mem 0 src size hs (by omega)]
    obtain ⟨t, ht⟩ : ∃ t, (text src).take (size - 1) = t := ⟨_, rfl⟩
    have hnz : ∀ x ∈ t, x ≠ 0 := by
      intro x hx
      rw [← ht] at hx
      exact text_nonzero _ x (List.mem_of_mem_take hx)
    rw [ht] at hl hl' ⊢
    simp only [List.take_zero, List.nil_append, Nat.zero_add]
    have hdrop : ∀ k, t.length + 1 ≤ k → (t ++ [0] ++ mem.drop (t.length + 1)).drop k = mem.drop k := by
      intro k hk
      have := drop_tail (t ++ [0]) mem k (by simp; omega)
      rwa [List.length_append, List.length_singleton] at this
    refine ⟨_, rfl, by simp; omega, hdrop _ (by omega), fun _ => ⟨?_, text_append t _ hnz⟩, hdrop _ (by omega)⟩
    rw [List.take_append]
    refine List.mem_append_left _ ?_
    rw [List.take_of_length_le (by simp; omega)]
    simp

private theorem strlen_text : ∀ (mem : List Nat), 0 ∈ mem → strlen mem = some (text mem).length := by
  intro mem
  induction mem with
  | nil => intro h; cases h
  | cons c cs ih =>
    intro h
    rw [strlen]
    unfold text
    by_cases hc : c = 0
    · rw [if_pos hc, List.takeWhile_cons_of_neg (by simpa using hc)]; rfl
    · rw [if_neg hc, List.takeWhile_cons_of_pos (by simpa using hc)]
      rcases List.mem_cons.1 h with h | h
      · exact absurd h.symm hc
      · rw [ih h]; rfl

private theorem text_take : ∀ (mem : List Nat), mem.take (text mem).length = text mem := by
  intro mem
  induction mem with
  | nil => rfl
  | cons c cs ih =>
    unfold text
    by_cases hc : c = 0
    · rw [List.takeWhile_cons_of_neg (by simpa using hc)]; rfl
    · rw [List.takeWhile_cons_of_pos (by simpa using hc), List.length_cons, List.take_succ_cons]
      exact congrArg _ ih

private theorem text_lt : ∀ (mem : List Nat) (size : Nat), 0 ∈ mem.take size → (text mem).length < size := by
  intro mem
  induction mem with
  | nil => intro size h; simp at h
  | cons c cs ih =>
    intro size h
    cases size with
    | zero => simp at h
    | succ size =>
      rw [List.take_succ_cons] at h
      unfold text
      by_cases hc : c = 0
      · rw [List.takeWhile_cons_of_neg (by simpa using hc)]; simp
      · rw [List.takeWhile_cons_of_pos (by simpa using hc), List.length_cons]
        rcases List.mem_cons.1 h with h | h
        · exact absurd h.symm hc
        · have := ih size h; unfold text at this; omega

/-- **C41 (strscat), partial.**  If the destination holds a string that is terminated within the given size: nothing
outside the first `size` bytes changes, the old string is kept, and as much of the source as fits is appended.
Without that hypothesis the function may write outside the `size` bytes, see `C41_strscat_overrun`. -/
theorem C41_strscat_partial (mem src : List Nat) (size : Nat) (hs : 0 ∈ src) (hsize : size ≤ mem.length)
    (hd : 0 ∈ mem.take size) (hmax : size < 2 ^ 64) :
    ∃ mem', strscat mem src size = some mem' ∧ mem'.length = mem.length ∧ mem'.drop size = mem.drop size ∧
      0 ∈ mem'.take size ∧ text mem' = text mem ++ (text src).take (size - 1 - (text mem).length) := by
  have hlt := text_lt mem size hd
  unfold strscat
  rw [if_neg (by omega), strlen_text mem (List.mem_of_mem_take hd), Option.bind_some]
  simp only
  have hroom : (size + 18446744073709551616 - (text mem).length) % 18446744073709551616 = size - (text mem).length := by
    omega
  rw [hroom, if_neg (by omega)]
  obtain ⟨t, ht⟩ : ∃ t, (text src).take (size - (text mem).length - 1) = t := ⟨_, rfl⟩
  have hl : t.length ≤ size - (text mem).length - 1 := by rw [← ht]; simp; omega
  rw [internal_eq mem _ src _ hs (by rw [ht]; omega), ht, text_take, show size - 1 - (text mem).length = size - (text mem).length - 1 by omega, ht]
  have hnz : ∀ x ∈ text mem ++ t, x ≠ 0 := by
    intro x hx
    rcases List.mem_append.1 hx with h | h
    · exact text_nonzero _ x h
    · rw [← ht] at h
      exact text_nonzero _ x (List.mem_of_mem_take h)
  refine ⟨_, rfl, by simp; omega, ?_, ?_, text_append _ _ hnz⟩
  · have := drop_tail (text mem ++ t ++ [0]) mem size (by simp; omega)
    rwa [List.length_append, List.length_append, List.length_singleton] at this
  · rw [List.take_append]
    refine List.mem_append_left _ ?_
    rw [List.take_of_length_le (by simp; omega)]
    simp

/-- "abc" copied into 3 bytes, appended within 8 -/
example : strscpy [9, 9, 9, 9] [97, 98, 99, 0] 3 = some [97, 98, 0, 9] ∧
    strscat [97, 98, 0, 9, 9, 9] [99, 100, 101, 102, 0] 5 = some [97, 98, 99, 100, 0, 9] := by decide

/-- **C41 (strscat), negation**: if the string in the destination is not terminated within `size`, the room computed
wraps around and the source is written behind the `size` bytes - here into bytes 2..4 of a 2-byte buffer - and, in a
smaller object, past its end. -/
theorem C41_strscat_overrun :
    strscat [97, 98, 99, 0, 9, 9] [120, 121, 0] 2 = some [97, 98, 99, 120, 121, 0] ∧
    strscat [97, 98, 99, 0] [120, 121, 0] 2 = none := by decide

end Verif.Str
