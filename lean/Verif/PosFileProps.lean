import Verif.PosFileModel

/-!
# C157: the position file
-/

namespace Verif.PosFile

private theorem attempt_none (s : List Char) (k : Nat) (h : '=' ∉ s.drop k) : attempt s k = none := by
  unfold attempt
  split
  · rename_i r q
    exfalso
    apply h
    have : '=' ∈ (s.drop k).dropWhile isSpace := by rw [q]; exact List.mem_cons_self
    exact (List.dropWhile_sublist _).mem this
  · rfl

private theorem drop_spaces (a b : List Char) (ha : ∀ c ∈ a, isSpace c = true) : (a ++ b).dropWhile isSpace = b.dropWhile isSpace := by
  induction a with
  | nil => rfl
  | cons x t ih =>
    show List.dropWhile isSpace (x :: (t ++ b)) = _
    rw [List.dropWhile_cons, if_pos (ha x List.mem_cons_self)]
    exact ih (fun c q => ha c (List.mem_cons_of_mem _ q))

private theorem drop_none (a : List Char) (h : a ≠ []) (ha : ∀ c ∈ a, isSpace c = false) (b : List Char) : (a ++ b).dropWhile isSpace = a ++ b := by
  cases a with
  | nil => exact absurd rfl h
  | cons x t =>
    show List.dropWhile isSpace (x :: (t ++ b)) = _
    rw [List.dropWhile_cons, if_neg (by rw [ha x List.mem_cons_self]; decide)]
    rfl

private theorem take_word (a b : List Char) (ha : ∀ c ∈ a, isSpace c = false) :
    (a ++ b).takeWhile (fun c => !isSpace c) = a ++ b.takeWhile (fun c => !isSpace c) := by
  induction a with
  | nil => rfl
  | cons x t ih =>
    show List.takeWhile _ (x :: (t ++ b)) = _
    rw [List.takeWhile_cons, if_pos (by rw [ha x List.mem_cons_self]; rfl), ih (fun c q => ha c (List.mem_cons_of_mem _ q))]
    rfl

private theorem drop_word (a b : List Char) (ha : ∀ c ∈ a, isSpace c = false) :
    (a ++ b).dropWhile (fun c => !isSpace c) = b.dropWhile (fun c => !isSpace c) := by
  induction a with
  | nil => rfl
  | cons x t ih =>
    show List.dropWhile _ (x :: (t ++ b)) = _
    rw [List.dropWhile_cons, if_pos (by rw [ha x List.mem_cons_self]; rfl), ih (fun c q => ha c (List.mem_cons_of_mem _ q))]

private theorem spaces_take (a : List Char) (ha : ∀ c ∈ a, isSpace c = true) : a.takeWhile (fun c => !isSpace c) = [] ∧
    a.dropWhile (fun c => !isSpace c) = a := by
  cases a with
  | nil => exact ⟨rfl, rfl⟩
  | cons x t =>
    have := ha x List.mem_cons_self
    constructor
    · rw [List.takeWhile_cons, if_neg (by rw [this]; decide)]
    · rw [List.dropWhile_cons, if_neg (by rw [this]; decide)]

private theorem longest_eq (s : List Char) (n : Nat) (x : List Char × List Char) (h0 : 0 < n) (h : attempt s n = some x) (m : Nat)
    (hm : n ≤ m) (hn : ∀ k, n < k → k ≤ m → attempt s k = none) : longest s m = some x := by
  induction m with
  | zero => omega
  | succ m ih =>
    unfold longest
    by_cases q : n = m + 1
    · rw [← q, h]
    · rw [hn (m + 1) (by omega) (Nat.le_refl _)]
      exact ih (by omega) (fun k a b => hn k a (by omega))

/-- A name, an equals sign and a value, with any white space around the sign and after the value, are found; also with white space in front. -/
theorem C157_parse (s0 n s1 s2 v s3 : List Char) (h0 : ∀ c ∈ s0, isSpace c = true) (h1 : ∀ c ∈ s1, isSpace c = true)
    (h2 : ∀ c ∈ s2, isSpace c = true) (h3 : ∀ c ∈ s3, isSpace c = true) (hn : n ≠ []) (hv : v ≠ [])
    (wn : ∀ c ∈ n, isSpace c = false) (wv : ∀ c ∈ v, isSpace c = false) (ev : '=' ∉ v) :
    parse (s0 ++ (n ++ (s1 ++ '=' :: (s2 ++ (v ++ s3))))) = some (n, v) := by
  unfold parse
  rw [drop_spaces _ _ h0, drop_none n hn wn]
  have a : attempt (n ++ (s1 ++ '=' :: (s2 ++ (v ++ s3)))) n.length = some (n, v) := by
    unfold attempt
    rw [List.drop_left, drop_spaces _ _ h1, List.dropWhile_cons, if_neg (by decide)]
    simp only []
    rw [drop_spaces _ _ h2, drop_none v hv wv, take_word v s3 wv, drop_word v s3 wv, (spaces_take s3 h3).1, (spaces_take s3 h3).2,
      List.append_nil, if_pos ⟨hv, List.all_eq_true.mpr h3⟩, List.take_left]
  have e : '=' ∉ s2 ++ (v ++ s3) := by
    intro q
    rcases List.mem_append.mp q with q | q
    · exact absurd (h2 _ q) (by decide)
    · rcases List.mem_append.mp q with q | q
      · exact ev q
      · exact absurd (h3 _ q) (by decide)
  refine longest_eq _ n.length _ (List.length_pos_iff.mpr hn) a _ ?_ ?_
  · rw [take_word n _ wn, List.length_append]
    omega
  · intro k q1 q2
    cases s1 with
    | nil =>
      apply attempt_none
      intro q
      apply e
      rw [List.nil_append, List.drop_append, List.drop_eq_nil_of_le (by omega), List.nil_append] at q
      obtain ⟨j, hj⟩ : ∃ j, k - n.length = j + 1 := ⟨k - n.length - 1, by omega⟩
      rw [hj, List.drop_succ_cons] at q
      exact List.mem_of_mem_drop q
    | cons x t =>
      exfalso
      rw [take_word n _ wn, List.cons_append, List.takeWhile_cons, if_neg (by rw [h1 x List.mem_cons_self]; decide), List.append_nil] at q2
      omega

example : parse "lat = 52.5\n".toList = some ("lat".toList, "52.5".toList) ∧ parse "lat=1".toList = some ("lat".toList, "1".toList) ∧
    parse "a=b=c".toList = some ("a=b".toList, "c".toList) ∧ parse "lat 5".toList = none := by decide +kernel

private theorem attempt_some (s : List Char) (k : Nat) (n v : List Char) (h : attempt s k = some (n, v)) :
    n = s.take k ∧ v ≠ [] ∧ (∀ c ∈ v, isSpace c = false) ∧
    ∃ s1 s2 s3, (∀ c ∈ s1, isSpace c = true) ∧ (∀ c ∈ s2, isSpace c = true) ∧ (∀ c ∈ s3, isSpace c = true) ∧ s.drop k = s1 ++ '=' :: (s2 ++ (v ++ s3)) := by
  unfold attempt at h
  split at h
  · rename_i r q
    simp only [] at h
    split at h
    · rename_i c
      injection h with h
      injection h with ha hb
      have sp : ∀ a : List Char, ∀ c ∈ a.takeWhile isSpace, isSpace c = true := fun a => List.all_eq_true.mp List.all_takeWhile
      refine ⟨ha.symm, by rw [← hb]; exact c.1, ?_, (s.drop k).takeWhile isSpace, r.takeWhile isSpace,
        (r.dropWhile isSpace).dropWhile (fun c => !isSpace c), sp _, sp _, List.all_eq_true.mp c.2, ?_⟩
      · intro x hx
        rw [← hb] at hx
        have := List.all_eq_true.mp (List.all_takeWhile (l := r.dropWhile isSpace) (p := fun c => !isSpace c)) x hx
        simpa using this
      · rw [← hb, List.takeWhile_append_dropWhile, List.takeWhile_append_dropWhile, ← q, List.takeWhile_append_dropWhile]
    · exact absurd h (by simp)
  · exact absurd h (by simp)

private theorem longest_some (s : List Char) (m : Nat) (x : List Char × List Char) (h : longest s m = some x) :
    ∃ k, 0 < k ∧ k ≤ m ∧ attempt s k = some x := by
  induction m with
  | zero => exact absurd h (by simp [longest])
  | succ m ih =>
    unfold longest at h
    split at h
    · rename_i y q
      injection h with h
      exact ⟨m + 1, by omega, Nat.le_refl _, by rw [q, h]⟩
    · obtain ⟨k, a, b, c⟩ := ih h
      exact ⟨k, a, by omega, c⟩

private theorem longest_ge (s : List Char) (m n : Nat) (x : List Char × List Char) (h0 : 0 < n) (hm : n ≤ m) (h : attempt s n = some x) :
    ∃ k y, n ≤ k ∧ k ≤ m ∧ attempt s k = some y ∧ longest s m = some y := by
  induction m with
  | zero => omega
  | succ m ih =>
    unfold longest
    cases q : attempt s (m + 1) with
    | some y => exact ⟨m + 1, y, hm, Nat.le_refl _, q, rfl⟩
    | none =>
      have : n ≠ m + 1 := fun e => by rw [← e, h] at q; exact absurd q (by simp)
      obtain ⟨k, y, a, b, c, d⟩ := ih (by omega)
      exact ⟨k, y, a, by omega, c, d⟩

/-- Only such lines are settings: what is found is a name and a value without white space, and with them the whole line. -/
theorem C157_parse_sound (l n v : List Char) (h : parse l = some (n, v)) :
    n ≠ [] ∧ v ≠ [] ∧ (∀ c ∈ n, isSpace c = false) ∧ (∀ c ∈ v, isSpace c = false) ∧
    ∃ s0 s1 s2 s3, (∀ c ∈ s0, isSpace c = true) ∧ (∀ c ∈ s1, isSpace c = true) ∧ (∀ c ∈ s2, isSpace c = true) ∧ (∀ c ∈ s3, isSpace c = true) ∧
      l = s0 ++ (n ++ (s1 ++ '=' :: (s2 ++ (v ++ s3)))) := by
  unfold parse at h
  obtain ⟨s, hs⟩ : ∃ s, s = l.dropWhile isSpace := ⟨_, rfl⟩
  rw [← hs] at h
  obtain ⟨k, k0, k1, a⟩ := longest_some _ _ _ h
  obtain ⟨e, a1, a2, s1, s2, s3, b1, b2, b3, b4⟩ := attempt_some s k n v a
  have pre : s.takeWhile (fun c => !isSpace c) ++ s.dropWhile (fun c => !isSpace c) = s := List.takeWhile_append_dropWhile
  have tk : n = (s.takeWhile (fun c => !isSpace c)).take k := by
    rw [e]
    conv => lhs; rw [← pre]
    rw [List.take_append_of_le_length k1]
  refine ⟨?_, a1, ?_, a2, l.takeWhile isSpace, s1, s2, s3, List.all_eq_true.mp List.all_takeWhile, b1, b2, b3, ?_⟩
  · intro q
    have := congrArg List.length tk
    rw [q, List.length_take, List.length_nil] at this
    omega
  · intro c hc
    rw [tk] at hc
    have := List.all_eq_true.mp (List.all_takeWhile (l := s) (p := fun c => !isSpace c)) c (List.mem_of_mem_take hc)
    simpa using this
  · rw [← b4, e, List.take_append_drop, hs, List.takeWhile_append_dropWhile]

/-- Of all ways to read a line as a setting the one with the longest name is taken. -/
theorem C157_parse_longest (s0 n s1 s2 v s3 : List Char) (h0 : ∀ c ∈ s0, isSpace c = true) (h1 : ∀ c ∈ s1, isSpace c = true)
    (h2 : ∀ c ∈ s2, isSpace c = true) (h3 : ∀ c ∈ s3, isSpace c = true) (hn : n ≠ []) (hv : v ≠ [])
    (wn : ∀ c ∈ n, isSpace c = false) (wv : ∀ c ∈ v, isSpace c = false) :
    ∃ n' v', parse (s0 ++ (n ++ (s1 ++ '=' :: (s2 ++ (v ++ s3))))) = some (n', v') ∧ n.length ≤ n'.length := by
  unfold parse
  rw [drop_spaces _ _ h0, drop_none n hn wn]
  have a : attempt (n ++ (s1 ++ '=' :: (s2 ++ (v ++ s3)))) n.length = some (n, v) := by
    unfold attempt
    rw [List.drop_left, drop_spaces _ _ h1, List.dropWhile_cons, if_neg (by decide)]
    simp only []
    rw [drop_spaces _ _ h2, drop_none v hv wv, take_word v s3 wv, drop_word v s3 wv, (spaces_take s3 h3).1, (spaces_take s3 h3).2,
      List.append_nil, if_pos ⟨hv, List.all_eq_true.mpr h3⟩, List.take_left]
  obtain ⟨s, hs⟩ : ∃ s, s = n ++ (s1 ++ '=' :: (s2 ++ (v ++ s3))) := ⟨_, rfl⟩
  have len : n.length ≤ (s.takeWhile fun c => !isSpace c).length := by
    rw [hs, take_word n _ wn, List.length_append]
    omega
  rw [← hs] at a ⊢
  obtain ⟨k, ⟨n', v'⟩, c1, c2, c3, c4⟩ := longest_ge s _ n.length _ (List.length_pos_iff.mpr hn) len a
  refine ⟨n', v', c4, ?_⟩
  rw [(attempt_some s k n' v' c3).1, List.length_take]
  have := (List.takeWhile_sublist (l := s) (fun c => !isSpace c)).length_le
  omega

example : parse "a=b=c=".toList = some ("a=b".toList, "c=".toList) ∧ parse "lat =".toList = none ∧ parse "lat = 5 6".toList = none := by decide +kernel

/-- A line without an equals sign is no setting. -/
theorem C157_no_sign (l : List Char) (h : '=' ∉ l) : parse l = none := by
  unfold parse
  have : ∀ s : List Char, '=' ∉ s → ∀ k, longest s k = none := by
    intro s hs k
    induction k with
    | zero => rfl
    | succ k ih =>
      unfold longest
      rw [attempt_none s (k + 1) (fun q => hs (List.mem_of_mem_drop q))]
      exact ih
  exact this _ (fun q => h ((List.dropWhile_sublist _).mem q)) _

/-- The lines that are left out are those that start with `#` or white space, and empty ones. -/
theorem C157_comment (l : List Char) : comment l = true ↔ l = [] ∨ ∃ c t, l = c :: t ∧ (isSpace c = true ∨ c = '#') := by
  unfold comment
  cases l with
  | nil => simp
  | cons c t =>
    simp only [List.all_cons, Bool.or_eq_true, Bool.and_eq_true, beq_iff_eq]
    constructor
    · rintro (⟨a, _⟩ | a)
      · exact .inr ⟨c, t, rfl, .inl a⟩
      · exact .inr ⟨c, t, rfl, a⟩
    · rintro (a | ⟨c', t', a, b⟩)
      · exact absurd a (by simp)
      · injection a with a1 a2
        rw [a1]
        exact .inr b

/-- White space: blank, tabulators, newline, form feed and carriage return, and nothing else. -/
theorem C157_space (c : Char) : isSpace c = true ↔ c.toNat = 32 ∨ c.toNat = 9 ∨ c.toNat = 10 ∨ c.toNat = 11 ∨ c.toNat = 12 ∨ c.toNat = 13 := by
  unfold isSpace
  simp only [Bool.or_eq_true, Bool.and_eq_true, beq_iff_eq, decide_eq_true_eq]
  omega

/-- A setting with white space in front would be a setting, but is left out as a comment, so the file is accepted without it. -/
theorem C157_indent_negation : ¬ ∀ (l : List Char) (n v : List Char) (x : Nat), parse l = some (n, v) → key n = some .lat →
    ∀ i, lines (fun _ => some x) Info.default [l] = some i → i.num .lat = some x := by
  intro h
  have e : lines (fun _ => some 5) (Info.default (V := Nat)) [" lat = 5\n".toList] = some Info.default := by
    unfold lines
    rw [if_pos (by decide +kernel)]
    rfl
  exact absurd (h " lat = 5\n".toList "lat".toList "5".toList 5 (by decide +kernel) (by decide +kernel) _ e) (by decide)

/-- The names of the numbers, in any case of the letters. -/
theorem C157_names : key "HDOP".toList = some .hdop ∧ key "Lat".toList = some .lat ∧ key "lon".toList = some .lon ∧ key "elv".toList = some .elv ∧
    key "speed".toList = some .speed ∧ key "track".toList = some .track ∧ key "mTrack".toList = some .mtrack ∧
    key "magvar".toList = some .magvar ∧ key "latitude".toList = none ∧ key "la".toList = none := by decide +kernel

private theorem not_same (w w' : String) (h : w.toList ≠ w'.toList) (n : List Char) (q : same w n = true) : same w' n = false := by
  unfold same at *
  rw [beq_iff_eq] at q
  rw [q]
  exact beq_eq_false_iff_ne.mpr h

private theorem key_not (n : List Char) (k : Key) (h : key n = some k) : same "sig" n = false ∧ same "fix" n = false := by
  constructor
  · by_cases q : same "sig" n = true
    · unfold key at h
      rw [not_same "sig" "hdop" (by decide +kernel) n q, not_same "sig" "lat" (by decide +kernel) n q, not_same "sig" "lon" (by decide +kernel) n q,
        not_same "sig" "elv" (by decide +kernel) n q, not_same "sig" "speed" (by decide +kernel) n q, not_same "sig" "track" (by decide +kernel) n q,
        not_same "sig" "mtrack" (by decide +kernel) n q, not_same "sig" "magvar" (by decide +kernel) n q] at h
      exact absurd h (by simp)
    · exact Bool.eq_false_iff.mpr q
  · by_cases q : same "fix" n = true
    · unfold key at h
      rw [not_same "fix" "hdop" (by decide +kernel) n q, not_same "fix" "lat" (by decide +kernel) n q, not_same "fix" "lon" (by decide +kernel) n q,
        not_same "fix" "elv" (by decide +kernel) n q, not_same "fix" "speed" (by decide +kernel) n q, not_same "fix" "track" (by decide +kernel) n q,
        not_same "fix" "mtrack" (by decide +kernel) n q, not_same "fix" "magvar" (by decide +kernel) n q] at h
      exact absurd h (by simp)
    · exact Bool.eq_false_iff.mpr q

/-- A number is stored under its name and nothing else changes; a text that is no number is an error. -/
theorem C157_number {V : Type} (rd : List Char → Option V) (i : Info V) (n v : List Char) (k : Key) (h : key n = some k) :
    (rd v = none → set rd i n v = none) ∧
    ∀ x, rd v = some x → ∃ i', set rd i n v = some i' ∧ i'.num k = some x ∧ (∀ k', k' ≠ k → i'.num k' = i.num k') ∧ i'.sig = i.sig ∧ i'.fix = i.fix := by
  obtain ⟨a, b⟩ := key_not n k h
  unfold set
  rw [a, b, h]
  refine ⟨fun q => ?_, fun x q => ?_⟩
  · rw [q]; rfl
  · rw [q]
    exact ⟨_, rfl, if_pos rfl, fun k' r => if_neg r, rfl, rfl⟩

/-- The words for the signal and the fix, and what they stand for; other words are errors, and so are other names. -/
theorem C157_words {V : Type} (rd : List Char → Option V) (i : Info V) :
    set rd i "sig".toList "bad".toList = some { i with sig := 0 } ∧ set rd i "SIG".toList "low".toList = some { i with sig := 1 } ∧
    set rd i "sig".toList "MID".toList = some { i with sig := 2 } ∧ set rd i "sig".toList "high".toList = some { i with sig := 3 } ∧
    set rd i "fix".toList "bad".toList = some { i with fix := 1 } ∧ set rd i "fix".toList "2D".toList = some { i with fix := 2 } ∧
    set rd i "Fix".toList "3d".toList = some { i with fix := 3 } ∧ set rd i "sig".toList "2d".toList = none ∧
    set rd i "fix".toList "low".toList = none ∧ set rd i "latitude".toList "1".toList = none := by
  refine ⟨rfl, rfl, rfl, rfl, rfl, rfl, rfl, rfl, rfl, rfl⟩

/-- The names as they are written. -/
def spelled : Key → String
  | .hdop => "hdop" | .lat => "lat" | .lon => "lon" | .elv => "elv" | .speed => "speed" | .track => "track" | .mtrack => "mtrack" | .magvar => "magvar"

/-- A name stands for a number exactly if it is its name up to the case of the letters. -/
theorem C157_key (n : List Char) (k : Key) : key n = some k ↔ n.map Char.toLower = (spelled k).toList := by
  have t : ∀ w, same w n = true ↔ n.map Char.toLower = w.toList := fun w => by unfold same; exact beq_iff_eq
  constructor
  · intro h
    unfold key at h
    simp only [t] at h
    repeat' split at h
    all_goals first | (injection h with h; subst h; assumption) | exact absurd h (by simp)
  · intro h
    unfold key same
    rw [h]
    cases k <;> decide +kernel

/-- The words for the signal and the fix, in any case of the letters; every other word is an error, and so is every other name. -/
theorem C157_word {V : Type} (rd : List Char → Option V) (i i' : Info V) (n v : List Char) :
    (n.map Char.toLower = "sig".toList → (set rd i n v = some i' ↔
      ∃ w j, (w, j) ∈ [("bad", 0), ("low", 1), ("mid", 2), ("high", 3)] ∧ v.map Char.toLower = w.toList ∧ i' = ⟨j, i.fix, i.num⟩)) ∧
    (n.map Char.toLower = "fix".toList → (set rd i n v = some i' ↔
      ∃ w j, (w, j) ∈ [("bad", 1), ("2d", 2), ("3d", 3)] ∧ v.map Char.toLower = w.toList ∧ i' = ⟨i.sig, j, i.num⟩)) ∧
    (n.map Char.toLower ≠ "sig".toList → n.map Char.toLower ≠ "fix".toList → (∀ k, n.map Char.toLower ≠ (spelled k).toList) → set rd i n v = none) := by
  have t : ∀ w (n : List Char), same w n = true ↔ n.map Char.toLower = w.toList := fun w n => by unfold same; exact beq_iff_eq
  refine ⟨fun h => ?_, fun h => ?_, fun h1 h2 h3 => ?_⟩
  · unfold set
    rw [if_pos ((t _ _).mpr h)]
    constructor
    · intro q
      simp only [t] at q
      repeat' split at q
      all_goals first | (injection q with q; subst q; rename_i c; exact ⟨_, _, by simp, c, rfl⟩) | exact absurd q (by simp)
    · rintro ⟨w, j, m, e, rfl⟩
      simp only [List.mem_cons, Prod.mk.injEq, List.not_mem_nil, or_false] at m
      unfold same
      rw [e]
      rcases m with ⟨rfl, rfl⟩ | ⟨rfl, rfl⟩ | ⟨rfl, rfl⟩ | ⟨rfl, rfl⟩ <;> rfl
  · unfold set
    rw [if_neg (fun q => absurd (((t _ _).mp q).symm.trans h) (by decide +kernel)), if_pos ((t _ _).mpr h)]
    constructor
    · intro q
      simp only [t] at q
      repeat' split at q
      all_goals first | (injection q with q; subst q; rename_i c; exact ⟨_, _, by simp, c, rfl⟩) | exact absurd q (by simp)
    · rintro ⟨w, j, m, e, rfl⟩
      simp only [List.mem_cons, Prod.mk.injEq, List.not_mem_nil, or_false] at m
      unfold same
      rw [e]
      rcases m with ⟨rfl, rfl⟩ | ⟨rfl, rfl⟩ | ⟨rfl, rfl⟩ <;> rfl
  · unfold set
    rw [if_neg (fun q => h1 ((t _ _).mp q)), if_neg (fun q => h2 ((t _ _).mp q))]
    cases hk : key n with
    | none => rfl
    | some k => exact absurd ((C157_key n k).mp hk) (h3 k)

private theorem lines_append {V : Type} (rd : List Char → Option V) (a b : List (List Char)) (i : Info V) :
    lines rd i (a ++ b) = (lines rd i a).bind fun j => lines rd j b := by
  induction a generalizing i with
  | nil => rfl
  | cons l t ih =>
    rw [List.cons_append]
    show lines rd i (l :: (t ++ b)) = _
    generalize hg : (fun j => lines rd j b) = g
    rw [hg] at ih
    unfold lines
    split
    · exact ih i
    · split
      · rfl
      · split
        · rfl
        · exact ih _

/-- One line that is neither a comment nor a good setting spoils the whole file, wherever it is. -/
theorem C157_bad_line {V : Type} (rd : List Char → Option V) (a b : List (List Char)) (l : List Char) (i : Info V) (hc : comment l = false)
    (h : ∀ n v, parse l = some (n, v) → ∀ j, set rd j n v = none) : lines rd i (a ++ l :: b) = none := by
  rw [lines_append]
  cases lines rd i a with
  | none => rfl
  | some j =>
    show lines rd j (l :: b) = none
    unfold lines
    rw [if_neg (by rw [hc]; decide)]
    split
    · rfl
    · rename_i n v q
      rw [h n v q j]

example : comment "lat 5".toList = false ∧ parse "lat 5".toList = none := by decide +kernel

/-- A file of comments and good settings is accepted. -/
theorem C157_accept {V : Type} (rd : List Char → Option V) (ls : List (List Char)) (i : Info V)
    (h : ∀ l ∈ ls, comment l = true ∨ ∃ n v, parse l = some (n, v) ∧ ∀ j, (set rd j n v).isSome) : (lines rd i ls).isSome := by
  induction ls generalizing i with
  | nil => rfl
  | cons l t ih =>
    have ht := fun y hy => h y (List.mem_cons_of_mem l hy)
    unfold lines
    by_cases c : comment l = true
    · rw [if_pos c]
      exact ih i ht
    · rw [if_neg c]
      rcases h l List.mem_cons_self with q | ⟨n, v, q1, q2⟩
      · exact absurd q c
      · rw [q1]
        simp only []
        have := q2 i
        cases hs : set rd i n v with
        | none => rw [hs] at this; exact absurd this (by simp)
        | some j => exact ih j ht

/-- A setting leaves the numbers with another name alone. -/
theorem C157_other {V : Type} (rd : List Char → Option V) (i i' : Info V) (n v : List Char) (k : Key) (h : key n ≠ some k)
    (hs : set rd i n v = some i') : i'.num k = i.num k := by
  cases hk : key n with
  | some k' =>
    cases hy : rd v with
    | none => rw [(C157_number rd i n v k' hk).1 hy] at hs; exact absurd hs (by simp)
    | some y =>
      obtain ⟨j, f, _, f2, _⟩ := (C157_number rd i n v k' hk).2 y hy
      rw [f] at hs
      injection hs with hs
      rw [← hs]
      exact f2 k (fun e => h (by rw [hk, e]))
  | none =>
    unfold set at hs
    rw [hk] at hs
    simp only [] at hs
    repeat' split at hs
    all_goals first | (injection hs with hs; rw [← hs]) | exact absurd hs (by simp)

/-- In an accepted file the last setting of a number counts. -/
theorem C157_last {V : Type} (rd : List Char → Option V) (a b : List (List Char)) (l n v : List Char) (k : Key) (i r : Info V)
    (hc : comment l = false) (hp : parse l = some (n, v)) (hk : key n = some k)
    (hb : ∀ l' ∈ b, comment l' = true ∨ ∀ n' v', parse l' = some (n', v') → key n' ≠ some k)
    (hr : lines rd i (a ++ l :: b) = some r) : r.num k = rd v := by
  rw [lines_append] at hr
  cases ha : lines rd i a with
  | none => rw [ha] at hr; exact absurd hr (by simp)
  | some j =>
    rw [ha] at hr
    replace hr : lines rd j (l :: b) = some r := hr
    unfold lines at hr
    rw [if_neg (by rw [hc]; decide), hp] at hr
    simp only [] at hr
    cases hx : rd v with
    | none => rw [(C157_number rd j n v k hk).1 hx] at hr; exact absurd hr (by simp)
    | some x =>
      obtain ⟨j', e, e2, _⟩ := (C157_number rd j n v k hk).2 x hx
      rw [e] at hr
      simp only [] at hr
      have main : ∀ (b : List (List Char)) (j' : Info V), (∀ l' ∈ b, comment l' = true ∨ ∀ n' v', parse l' = some (n', v') → key n' ≠ some k) →
          lines rd j' b = some r → r.num k = j'.num k := by
        intro b
        induction b with
        | nil =>
          intro j' _ hr
          unfold lines at hr
          injection hr with hr
          rw [hr]
        | cons l' t ih =>
          intro j' hb hr
          have ht := fun y hy => hb y (List.mem_cons_of_mem l' hy)
          unfold lines at hr
          by_cases c : comment l' = true
          · rw [if_pos c] at hr
            exact ih j' ht hr
          · rw [if_neg c] at hr
            rcases hb l' List.mem_cons_self with q | q
            · exact absurd q c
            · cases hq : parse l' with
              | none => rw [hq] at hr; exact absurd hr (by simp)
              | some y =>
                obtain ⟨n', v'⟩ := y
                rw [hq] at hr
                simp only [] at hr
                cases hs : set rd j' n' v' with
                | none => rw [hs] at hr; exact absurd hr (by simp)
                | some j2 =>
                  rw [hs] at hr
                  simp only [] at hr
                  rw [ih j2 ht hr, C157_other rd j' j2 n' v' k (q n' v' hq) hs]
      rw [main b j' hb hr, e2]

example : (lines (V := Nat) (fun v => if v = "7".toList then some 7 else none) Info.default
    ["# file".toList, "lat = 7".toList, "sig=low".toList]).map (fun i => (i.sig, i.fix, i.num .lat, i.num .lon)) = some (1, 1, some 7, none) := by
  decide +kernel

/-- A file is read once for each time of modification; one that was away is read again.  What counts are its lines alone. -/
theorem C157_cache_partial {V : Type} (rd : List Char → Option V) (c m : Nat) (ls ls' : List (List Char)) (hm : m ≠ c) (h0 : m ≠ 0) :
    (read rd c (some (m, ls))).2 = lines rd ⟨3, 1, fun _ => none⟩ ls ∧
    read rd (read rd c (some (m, ls))).1 (some (m, ls')) = (m, none) ∧
    (read rd c none).2 = none ∧ (read rd (read rd c none).1 (some (m, ls))).2 = lines rd ⟨3, 1, fun _ => none⟩ ls := by
  have e : read rd c (some (m, ls)) = (m, lines rd Info.default ls) := if_neg (fun q => hm q.symm)
  refine ⟨by rw [e]; rfl, ?_, rfl, ?_⟩
  · rw [e]
    exact if_pos rfl
  · have : read rd 0 (some (m, ls)) = (m, lines rd Info.default ls) := if_neg (fun q => h0 q.symm)
    show (read rd 0 (some (m, ls))).2 = _
    rw [this]
    rfl

/-- A file with the time of modification 0 is never read at the start. -/
theorem C157_cache_negation : ¬ ∀ (m : Nat) (ls : List (List Char)), (read (V := Nat) (fun _ => some 5) 0 (some (m, ls))).2.isSome =
    (lines (V := Nat) (fun _ => some 5) Info.default ls).isSome := by
  intro h
  exact absurd (h 0 []) (by decide)

end Verif.PosFile
