import Verif.JsonSpec
/-
Helper lemmas: the text written for a tree of calls in closed form, and how the
reader takes it apart.
-/
namespace Verif.Json

/-! ### The writer -/

def ind (p : Bool) (d : Nat) : Str :=
  if d ≠ 0 then if p then '\n' :: List.replicate (2 * d) ' ' else [] else []

def sep (p : Bool) (d : Nat) (first : Bool) : Str :=
  (if first then [] else [',']) ++ ind p d

def opener (array : Bool) : Char := if array then '[' else '{'

def emit (p : Bool) : Nat → Bool → Items Scalar → Str
  | _, _, .nil => []
  | d, first, .leaf k v r =>
      sep p d first ++ keyText k ++ scalarText v ++ emit p d false r
  | d, first, .node k a b r =>
      sep p d first ++ keyText k ++ [opener a] ++ emit p (d + 1) true b ++ ind p d ++
        [closer a] ++ emit p d false r

theorem execs_append (s : Sess) (xs ys : List Call) :
    execs s (xs ++ ys) =
      match execs s xs with
      | .ok s1 o1 =>
        match execs s1 ys with
        | .ok s2 o2 => .ok s2 (o1 ++ o2)
        | .abort => .abort
        | .ub => .ub
      | .abort => .abort
      | .ub => .ub := by
  induction xs generalizing s with
  | nil =>
    simp only [List.nil_append, execs]
    cases execs s ys <;> rfl
  | cons c cs ih =>
    simp only [List.cons_append, execs]
    cases exec s c with
    | ok s1 o1 =>
      simp only [ih]
      cases execs s1 cs with
      | ok s2 o2 =>
        simp only []
        cases execs s2 ys with
        | ok s3 o3 => simp only [List.append_assoc]
        | abort => rfl
        | ub => rfl
      | abort => rfl
      | ub => rfl
    | abort => rfl
    | ub => rfl

theorem execs_cons_ok {s s1 s2 : Sess} {c : Call} {cs : List Call} {o1 o2 : Str}
    (h1 : exec s c = .ok s1 o1) (h2 : execs s1 cs = .ok s2 o2) :
    execs s (c :: cs) = .ok s2 (o1 ++ o2) := by
  simp only [execs, h1, h2]

theorem execs_append_ok {s s1 s2 : Sess} {xs ys : List Call} {o1 o2 : Str}
    (h1 : execs s xs = .ok s1 o1) (h2 : execs s1 ys = .ok s2 o2) :
    execs s (xs ++ ys) = .ok s2 (o1 ++ o2) := by
  rw [execs_append, h1]; simp only [h2]

theorem indent_eq (s : Sess) : indent s = ind s.pretty s.depth := rfl

theorem comma_eq (s : Sess) : comma s = if s.entry s.depth = 0 then [] else [','] := by
  unfold comma
  by_cases h : s.entry s.depth = 0
  · rw [if_neg (by simpa using h), if_pos h]
  · rw [if_pos h, if_neg h]

theorem sep_eq (s : Sess) :
    comma s ++ indent s = sep s.pretty s.depth (decide (s.entry s.depth = 0)) := by
  rw [comma_eq, indent_eq]
  unfold sep
  by_cases h : s.entry s.depth = 0
  · simp [h]
  · simp [h]

/-- What a list of members writes, and the session after it. -/
theorem execs_calls (t : Items Scalar) (s : Sess)
    (hd : s.depth + t.nest < maxDepth) (hc : s.entry s.depth + t.count ≤ intMax)
    (hs : t.smaller (intMax + 1)) :
    ∃ s', execs s (calls t) =
        .ok s' (emit s.pretty s.depth (decide (s.entry s.depth = 0)) t) ∧
      s'.pretty = s.pretty ∧ s'.depth = s.depth ∧
      s'.entry s.depth = s.entry s.depth + t.count ∧
      (∀ j, j < s.depth → s'.entry j = s.entry j) := by
  induction t generalizing s with
  | nil => exact ⟨s, rfl, rfl, rfl, rfl, fun _ _ => rfl⟩
  | leaf k v r ih =>
    simp only [Items.nest] at hd
    simp only [Items.count] at hc
    simp only [Items.smaller] at hs
    have he : exec s (.put k v) = .ok (setEntry s s.depth (s.entry s.depth + 1))
        (comma s ++ indent s ++ keyText k ++ scalarText v) := by
      simp only [exec]
      rw [if_neg (by omega), if_neg (by omega)]
    obtain ⟨s', h1, h2, h3, h4, h5⟩ := ih (setEntry s s.depth (s.entry s.depth + 1))
      (by show s.depth + r.nest < maxDepth; omega)
      (by simp only [setEntry, if_true]; omega) hs
    refine ⟨s', ?_, h2, h3, ?_, ?_⟩
    · rw [calls, execs_cons_ok he h1, sep_eq]
      simp only [emit, setEntry, if_true]
      rw [show decide (s.entry s.depth + 1 = 0) = false from by simp]
    · simp only [setEntry, if_true] at h4
      rw [h4, Items.count]; omega
    · intro j hj
      rw [h5 j hj]
      simp only [setEntry]
      rw [if_neg (by omega)]
  | node k a b r ihb ihr =>
    simp only [Items.nest] at hd
    simp only [Items.count] at hc
    simp only [Items.smaller] at hs
    obtain ⟨hcb, hsb, hsr⟩ := hs
    have he : exec s (.mark true a k) =
        .ok (setEntry { (setEntry s s.depth (s.entry s.depth + 1)) with depth := s.depth + 1 }
              (s.depth + 1) 0)
          (comma s ++ indent s ++ keyText k ++ (if a then ['['] else ['{'])) := by
      simp only [exec]
      rw [if_neg (by omega), if_neg (by omega), if_neg (by omega)]
    obtain ⟨s1, hs1⟩ : ∃ s1, s1 = setEntry
        { (setEntry s s.depth (s.entry s.depth + 1)) with depth := s.depth + 1 }
        (s.depth + 1) 0 := ⟨_, rfl⟩
    have e1d : s1.depth = s.depth + 1 := by rw [hs1]; rfl
    have e1p : s1.pretty = s.pretty := by rw [hs1]; rfl
    have e1e : s1.entry (s.depth + 1) = 0 := by rw [hs1]; simp [setEntry]
    have e1c : s1.entry s.depth = s.entry s.depth + 1 := by
      rw [hs1]; simp [setEntry]
    have e1j : ∀ j, j < s.depth → s1.entry j = s.entry j := by
      intro j hj
      rw [hs1]; simp only [setEntry]
      rw [if_neg (by omega), if_neg (by omega)]
    rw [← hs1] at he
    obtain ⟨s2, h1, h2, h3, h4, h5⟩ := ihb s1 (by rw [e1d]; omega)
      (by rw [e1d, e1e]; omega) hsb
    rw [e1d, e1e, e1p] at h1
    rw [e1d] at h3 h4 h5
    have hcl : exec s2 (.mark false a none) =
        .ok { (setEntry s2 s2.depth 0) with depth := s2.depth - 1 }
          (indent { s2 with depth := s2.depth - 1 } ++ (if a then [']'] else ['}'])) := by
      simp only [exec]
      rw [if_neg (by omega), if_neg (by omega)]
    obtain ⟨s3, hs3⟩ : ∃ s3, s3 =
        ({ (setEntry s2 s2.depth 0) with depth := s2.depth - 1 } : Sess) := ⟨_, rfl⟩
    have e3d : s3.depth = s.depth := by rw [hs3]; show s2.depth - 1 = _; omega
    have e3p : s3.pretty = s.pretty := by rw [hs3]; show s2.pretty = _; rw [h2, e1p]
    have e3e : ∀ j, j ≤ s.depth → s3.entry j = s1.entry j := by
      intro j hj
      rw [hs3]; simp only [setEntry]
      rw [if_neg (by omega), h5 j (by omega)]
    rw [← hs3] at hcl
    obtain ⟨s4, g1, g2, g3, g4, g5⟩ := ihr s3 (by rw [e3d]; omega)
      (by rw [e3d, e3e _ (Nat.le_refl _), e1c]; omega) hsr
    rw [e3d, e3e _ (Nat.le_refl _), e1c, e3p] at g1
    rw [e3d] at g3 g4 g5
    refine ⟨s4, ?_, by rw [g2, e3p], g3, ?_, ?_⟩
    · have hind : indent { s2 with depth := s2.depth - 1 } = ind s.pretty s.depth := by
        rw [indent_eq]
        show ind s2.pretty (s2.depth - 1) = _
        rw [h2, e1p, h3]
        rfl
      rw [hind] at hcl
      rw [calls, execs_cons_ok he (execs_append_ok h1 (execs_cons_ok hcl g1)), sep_eq]
      simp only [emit, opener, closer]
      rw [show decide (s.entry s.depth + 1 = 0) = false from by simp]
      have ho : (if a = true then ['['] else ['{']) = [if a = true then '[' else '{'] := by
        cases a <;> rfl
      have hcl' : (if a = true then [']'] else ['}']) = [if a = true then ']' else '}'] := by
        cases a <;> rfl
      rw [ho, hcl']
      simp only [decide_true, List.append_assoc]
    · rw [g4, e3e _ (Nat.le_refl _), e1c, Items.count]; omega
    · intro j hj
      rw [g5 j hj, e3e j (by omega), e1j j hj]

/-! ### The reader -/

def wsOnly (w : Str) : Prop := ∀ c ∈ w, isWs c = true

theorem skipWs_ws {w : Str} (hw : wsOnly w) (s : Str) : skipWs (w ++ s) = skipWs s := by
  induction w with
  | nil => rfl
  | cons c w ih =>
    simp only [List.cons_append, skipWs]
    rw [if_pos (hw c (List.mem_cons_self ..))]
    exact ih (fun d hd => hw d (List.mem_cons_of_mem _ hd))

theorem skipWs_cons {c : Char} (hc : isWs c = false) (s : Str) : skipWs (c :: s) = c :: s := by
  simp only [skipWs, hc]; rfl

theorem ind_ws (p : Bool) (d : Nat) : wsOnly (ind p d) := by
  unfold ind wsOnly
  intro c hc
  by_cases hd : d ≠ 0
  · rw [if_pos hd] at hc
    cases p with
    | true =>
      simp only [if_true] at hc
      rcases List.mem_cons.mp hc with h | h
      · rw [h]; rfl
      · rw [List.eq_of_mem_replicate h]; rfl
    | false => cases hc
  · rw [if_neg hd] at hc
    cases hc

theorem pStr_clean {k : Str} (hk : clean k) (r : Str) : pStr (k ++ '"' :: r) = some (k, r) := by
  induction k with
  | nil =>
    simp only [List.nil_append]
    unfold pStr
    rw [if_pos rfl]
  | cons c k ih =>
    obtain ⟨h1, h2, h3⟩ := hk c (List.mem_cons_self ..)
    have := ih (fun d hd => hk d (List.mem_cons_of_mem _ hd))
    simp only [List.cons_append]
    unfold pStr
    rw [if_neg h1, if_neg h2, if_neg (by omega), this]
    rfl

theorem pKey_clean {k : Str} (hk : clean k) (c : Char) (r : Str) (hc : isWs c = false) :
    pKey (keyText (some k) ++ c :: r) = some (k, c :: r) := by
  have : keyText (some k) ++ c :: r = '"' :: (k ++ '"' :: (':' :: ' ' :: c :: r)) := by
    simp [keyText]
  rw [this]
  simp only [pKey, if_true]
  rw [pStr_clean hk]
  simp only []
  rw [skipWs_cons (by decide)]
  simp only [if_true]
  rw [show (' ' :: c :: r) = [' '] ++ c :: r from rfl, skipWs_ws (by intro d hd; simp at hd; rw [hd]; rfl),
    skipWs_cons hc]

/-- What may follow a scalar. -/
def stops (r : Str) : Prop :=
  ∃ (c : Char) (r' : Str), r = c :: r' ∧ (isWs c = true ∨ c = ',' ∨ c = ']' ∨ c = '}')

theorem stop_char {c : Char} (h : isWs c = true ∨ c = ',' ∨ c = ']' ∨ c = '}') :
    isDigit c = false ∧ c ≠ '.' ∧ c ≠ 'e' ∧ c ≠ 'E' := by
  rcases h with h | h | h | h
  · simp only [isWs, Bool.or_eq_true, decide_eq_true_eq] at h
    rcases h with ((h | h) | h) | h <;> rw [h] <;> decide
  · rw [h]; decide
  · rw [h]; decide
  · rw [h]; decide

theorem spanDigits_stop {ip r : Str} (hip : ∀ c ∈ ip, isDigit c = true)
    (hr : ∀ c r', r = c :: r' → isDigit c = false) : spanDigits (ip ++ r) = (ip, r) := by
  induction ip with
  | nil =>
    cases r with
    | nil => rfl
    | cons c r =>
      simp only [List.nil_append, spanDigits]
      rw [hr c r rfl]; rfl
  | cons c ip ih =>
    have := ih (fun d hd => hip d (List.mem_cons_of_mem _ hd))
    simp only [List.cons_append, spanDigits]
    rw [if_pos (hip c (List.mem_cons_self ..)), this]

theorem digit_toNat {n : Nat} (h : n < 10) : (digit n).toNat = 48 + n := by
  have : n = 0 ∨ n = 1 ∨ n = 2 ∨ n = 3 ∨ n = 4 ∨ n = 5 ∨ n = 6 ∨ n = 7 ∨ n = 8 ∨ n = 9 := by omega
  rcases this with h | h | h | h | h | h | h | h | h | h <;> rw [h] <;> rfl

theorem isDigit_digit {n : Nat} (h : n < 10) : isDigit (digit n) = true := by
  unfold isDigit
  rw [digit_toNat h]
  simp; omega

theorem decF_digits (f n : Nat) : ∀ c ∈ decF f n, isDigit c = true := by
  induction f generalizing n with
  | zero => intro c hc; cases hc
  | succ f ih =>
    intro c hc
    unfold decF at hc
    by_cases h : n < 10
    · rw [if_pos h] at hc
      rw [List.mem_singleton.mp hc]
      exact isDigit_digit h
    · rw [if_neg h] at hc
      rcases List.mem_append.mp hc with hc | hc
      · exact ih _ c hc
      · rw [List.mem_singleton.mp hc]
        exact isDigit_digit (by omega)

theorem decF_ne_nil (f n : Nat) : decF (f + 1) n ≠ [] := by
  unfold decF
  by_cases h : n < 10
  · rw [if_pos h]; simp
  · rw [if_neg h]; simp

theorem decF_head_pos (f n : Nat) (hn : n < 10 ^ (f + 1)) (h1 : 1 ≤ n) :
    (decF (f + 1) n).head? ≠ some '0' := by
  induction f generalizing n with
  | zero =>
    intro hh
    have h10 : n < 10 := by simpa using hn
    unfold decF at hh
    rw [if_pos h10] at hh
    simp only [List.head?_cons, Option.some.injEq] at hh
    have : (digit n).toNat = 48 := by rw [hh]; rfl
    rw [digit_toNat h10] at this
    omega
  | succ f ih =>
    intro hh
    unfold decF at hh
    by_cases h : n < 10
    · rw [if_pos h] at hh
      simp only [List.head?_cons, Option.some.injEq] at hh
      have : (digit n).toNat = 48 := by rw [hh]; rfl
      rw [digit_toNat h] at this
      omega
    · rw [if_neg h] at hh
      have hne := decF_ne_nil f (n / 10)
      have hlt : n / 10 < 10 ^ (f + 1) := by
        rw [Nat.pow_succ] at hn
        exact Nat.div_lt_of_lt_mul (by omega)
      refine ih (n / 10) hlt (by omega) ?_
      cases hd : decF (f + 1) (n / 10) with
      | nil => exact absurd hd hne
      | cons c r =>
        rw [hd] at hh
        simpa using hh

theorem decF_head (f n : Nat) (hn : n < 10 ^ (f + 1)) :
    (decF (f + 1) n).head? = some '0' → (decF (f + 1) n).length = 1 := by
  intro hh
  by_cases h0 : 1 ≤ n
  · exact absurd hh (decF_head_pos f n hn h0)
  · unfold decF
    rw [if_pos (by omega)]
    rfl

theorem digitsVal_append (xs : Str) (c : Char) :
    digitsVal (xs ++ [c]) = 10 * digitsVal xs + (c.toNat - 48) := by
  unfold digitsVal
  rw [List.foldl_append]
  simp only [List.foldl_cons, List.foldl_nil, pushDigit]

theorem digitsVal_one (c : Char) : digitsVal [c] = c.toNat - 48 := by
  unfold digitsVal
  simp only [List.foldl_cons, List.foldl_nil, pushDigit]
  omega

theorem digitsVal_decF (f n : Nat) (hn : n < 10 ^ (f + 1)) : digitsVal (decF (f + 1) n) = n := by
  induction f generalizing n with
  | zero =>
    have h10 : n < 10 := by simpa using hn
    unfold decF
    rw [if_pos h10, digitsVal_one, digit_toNat h10]
    omega
  | succ f ih =>
    unfold decF
    by_cases h : n < 10
    · rw [if_pos h, digitsVal_one, digit_toNat h]
      omega
    · rw [if_neg h, digitsVal_append, ih, digit_toNat (by omega)]
      · omega
      · rw [Nat.pow_succ] at hn
        exact Nat.div_lt_of_lt_mul (by omega)

/-- A digit is none of the letters and signs the reader looks for. -/
theorem digit_facts {c : Char} (h : isDigit c = true) :
    c ≠ '-' ∧ c ≠ 't' ∧ c ≠ 'f' ∧ c ≠ 'n' ∧ c ≠ '{' ∧ c ≠ '[' ∧ c ≠ '"' ∧ c ≠ '}' ∧ c ≠ ']' ∧
      c ≠ ',' ∧ isWs c = false := by
  have hx : ∀ d : Char, isDigit d = false → c ≠ d := by
    intro d hd he
    rw [he, hd] at h
    cases h
  refine ⟨hx _ (by decide), hx _ (by decide), hx _ (by decide), hx _ (by decide),
    hx _ (by decide), hx _ (by decide), hx _ (by decide), hx _ (by decide), hx _ (by decide),
    hx _ (by decide), ?_⟩
  simp only [isWs, Bool.or_eq_false_iff, decide_eq_false_iff_not]
  exact ⟨⟨⟨hx _ (by decide), hx _ (by decide)⟩, hx _ (by decide)⟩, hx _ (by decide)⟩

theorem pMinus_digits {ip r : Str} (hne : ip ≠ []) (hip : ∀ c ∈ ip, isDigit c = true) (m : Bool) :
    pMinus ((if m then ['-'] else []) ++ (ip ++ r)) = (m, ip ++ r) := by
  cases m with
  | true => rfl
  | false =>
    cases ip with
    | nil => exact absurd rfl hne
    | cons c ip =>
      simp only [Bool.false_eq_true, if_false, List.nil_append, List.cons_append, pMinus]
      rw [if_neg (digit_facts (hip c (List.mem_cons_self ..))).1]

theorem pNum_int {ip r : Str} (m : Bool) (hne : ip ≠ []) (hip : ∀ c ∈ ip, isDigit c = true)
    (hz : ip.head? = some '0' → ip.length = 1) (hr : stops r) :
    pNum ((if m then ['-'] else []) ++ (ip ++ r)) =
      some (.int (if m then -(digitsVal ip : Nat) else (digitsVal ip : Nat)), r) := by
  obtain ⟨c, r', hr', hc⟩ := hr
  obtain ⟨g1, g2, g3, g4⟩ := stop_char hc
  unfold pNum
  rw [pMinus_digits hne hip]
  simp only []
  rw [spanDigits_stop hip (by intro d s hd; rw [hr'] at hd; cases hd; exact g1)]
  simp only []
  rw [if_neg hne, if_neg (by intro h; exact h.2 (hz h.1))]
  rw [hr']
  simp only [pFrac]
  rw [if_neg g2]
  simp only [pExp]
  rw [if_neg (by simp [g3, g4])]
  simp

theorem pNum_fixed {t r : Str} (ht : fixed t) (hr : stops r) : pNum (t ++ r) = some (.frac t, r) := by
  obtain ⟨m, ip, fp, rfl, hne, hip, hz, hfne, hfp⟩ := ht
  obtain ⟨c, r', hr', hc⟩ := hr
  obtain ⟨g1, g2, g3, g4⟩ := stop_char hc
  have hshape : (if m = true then ['-'] else []) ++ ip ++ '.' :: fp ++ r =
      (if m = true then ['-'] else []) ++ (ip ++ ('.' :: (fp ++ r))) := by
    simp
  rw [hshape]
  unfold pNum
  rw [pMinus_digits hne hip]
  simp only []
  rw [spanDigits_stop hip (by intro d s hd; cases hd; decide)]
  simp only []
  rw [if_neg hne, if_neg (by intro h; exact h.2 (hz h.1))]
  simp only [pFrac, if_true]
  rw [spanDigits_stop hfp (by intro d s hd; rw [hr'] at hd; cases hd; exact g1)]
  simp only []
  rw [if_neg hfne]
  simp only []
  rw [hr']
  simp only [pExp]
  rw [if_neg (by simp [g3, g4])]
  simp

/-- The first character of a scalar other than a string. -/
theorem number_head {s : Str} (m : Bool) {ip r : Str} (hne : ip ≠ [])
    (hip : ∀ c ∈ ip, isDigit c = true) (hs : s = (if m then ['-'] else []) ++ (ip ++ r)) :
    ∃ c s', s = c :: s' ∧ (c = '-' ∨ isDigit c = true) := by
  cases m with
  | true => exact ⟨'-', ip ++ r, by rw [hs]; rfl, Or.inl rfl⟩
  | false =>
    cases ip with
    | nil => exact absurd rfl hne
    | cons c ip =>
      exact ⟨c, ip ++ r, by rw [hs]; rfl, Or.inr (hip c (List.mem_cons_self ..))⟩

theorem pAtom_number {c : Char} {s : Str} (h : c = '-' ∨ isDigit c = true) :
    pAtom (c :: s) = pNum (c :: s) := by
  have hc : c ≠ 't' ∧ c ≠ 'f' ∧ c ≠ 'n' := by
    rcases h with h | h
    · rw [h]; decide
    · have := digit_facts h
      exact ⟨this.2.1, this.2.2.1, this.2.2.2.1⟩
  unfold pAtom
  simp only [stripWord]
  rw [if_neg (fun h => hc.1 h.symm), if_neg (fun h => hc.2.1 h.symm), if_neg (fun h => hc.2.2 h.symm)]

/-- A character that begins a value other than a bracket or a string. -/
def plainHead (c : Char) : Prop :=
  isWs c = false ∧ c ≠ '{' ∧ c ≠ '[' ∧ c ≠ '"' ∧ c ≠ '}' ∧ c ≠ ']' ∧ c ≠ ','

theorem plainHead_number {c : Char} (h : c = '-' ∨ isDigit c = true) : plainHead c := by
  rcases h with h | h
  · rw [h]; unfold plainHead; decide
  · have := digit_facts h
    exact ⟨this.2.2.2.2.2.2.2.2.2.2, this.2.2.2.2.1, this.2.2.2.2.2.1, this.2.2.2.2.2.2.1,
      this.2.2.2.2.2.2.2.1, this.2.2.2.2.2.2.2.2.1, this.2.2.2.2.2.2.2.2.2.1⟩

/-- A scalar is a string or is read by `pAtom`. -/
theorem scalar_cases (v : Scalar) (hv : cleanScalar v) (r : Str) (hr : stops r) :
    (∃ u : Str, clean u ∧ scalarText v ++ r = '"' :: (u ++ '"' :: r) ∧ denote v = .str u) ∨
    (∃ (c : Char) (s : Str), scalarText v ++ r = c :: s ∧ plainHead c ∧
      pAtom (c :: s) = some (denote v, r)) := by
  cases v with
  | bool b =>
    refine Or.inr ?_
    cases b with
    | true => exact ⟨'t', _, rfl, by unfold plainHead; decide, rfl⟩
    | false => exact ⟨'f', _, rfl, by unfold plainHead; decide, rfl⟩
  | str s =>
    refine Or.inl ?_
    cases s with
    | none => exact ⟨[], (by intro c hc; cases hc), rfl, rfl⟩
    | some s => exact ⟨s, hv s rfl, (by simp [scalarText]), rfl⟩
  | int v =>
    refine Or.inr ?_
    obtain ⟨hv1, hv2⟩ := hv
    have hlt : v.natAbs < 10 ^ 20 := by omega
    obtain ⟨m, hm⟩ : ∃ m : Bool, m = decide (v < 0) := ⟨_, rfl⟩
    have htxt : scalarText (.int v) ++ r = (if m = true then ['-'] else []) ++ (decF 20 v.natAbs ++ r) := by
      simp only [scalarText, dec]
      by_cases h : v < 0
      · rw [if_pos h, hm]; simp [h]
      · rw [if_neg h, hm]; simp [h]
    have hne := decF_ne_nil 19 v.natAbs
    have hip := decF_digits 20 v.natAbs
    obtain ⟨c, s, hs, hc⟩ := number_head m hne hip htxt
    refine ⟨c, s, hs, plainHead_number hc, ?_⟩
    rw [pAtom_number hc, ← hs, htxt, pNum_int m hne hip (decF_head 19 _ hlt) hr,
      digitsVal_decF 19 _ hlt]
    simp only [denote, Option.some.injEq, Prod.mk.injEq, Atom.int.injEq, and_true]
    by_cases h : v < 0
    · rw [hm]; simp [h]; omega
    · rw [hm]; simp [h]; omega
  | flt t =>
    refine Or.inr ?_
    have ht : fixed t := hv
    have hnum := pNum_fixed ht hr
    obtain ⟨m, ip, fp, htt, hne, hip, hz, hfne, hfp⟩ := ht
    have hshape : t ++ r = (if m = true then ['-'] else []) ++ (ip ++ ('.' :: (fp ++ r))) := by
      rw [htt]; simp
    obtain ⟨c, s, hs, hc⟩ := number_head m hne hip hshape
    refine ⟨c, s, hs, plainHead_number hc, ?_⟩
    rw [pAtom_number hc, ← hs, hnum]
    rfl

/-! ### Reading what was written -/

def Items.size {α : Type} : Items α → Nat
  | .nil => 0
  | .leaf _ _ r => Items.size r + 1
  | .node _ _ b r => Items.size b + Items.size r + 1

theorem closer_facts (a : Bool) : isWs (closer a) = false := by cases a <;> decide

/-- The member that begins with `c` is found behind the separator. -/
theorem pNext_sep (p : Bool) (d : Nat) (array first : Bool) (c : Char) (s : Str)
    (h1 : isWs c = false) (h2 : c ≠ '}') (h3 : c ≠ ']') :
    pNext array first (sep p d first ++ c :: s) = some (some (c :: s), []) := by
  have hcl : c ≠ closer array := by
    cases array
    · exact h2
    · exact h3
  unfold pNext sep
  cases first with
  | true =>
    simp only [if_true, List.nil_append]
    rw [skipWs_ws (ind_ws p d), skipWs_cons h1]
    simp only []
    rw [if_neg hcl]
  | false =>
    simp only [Bool.false_eq_true, if_false, List.cons_append, List.nil_append]
    rw [skipWs_cons (by decide)]
    simp only []
    rw [if_neg (by cases array <;> decide)]
    simp only [if_true]
    rw [skipWs_ws (ind_ws p d), skipWs_cons h1]

theorem pNext_end (array first : Bool) {w : Str} (hw : wsOnly w) (r : Str) :
    pNext array first (w ++ closer array :: r) = some (none, r) := by
  unfold pNext
  rw [skipWs_ws hw, skipWs_cons (closer_facts array)]
  simp

/-- What follows a member stops a number. -/
theorem stops_rest (p : Bool) (d : Nat) (t : Items Scalar) (array : Bool) {w : Str}
    (hw : wsOnly w) (r : Str) : stops (emit p d false t ++ (w ++ closer array :: r)) := by
  cases t with
  | nil =>
    simp only [emit, List.nil_append]
    cases w with
    | nil =>
      refine ⟨closer array, r, rfl, Or.inr (Or.inr ?_)⟩
      cases array
      · exact Or.inr rfl
      · exact Or.inl rfl
    | cons c w => exact ⟨c, _, rfl, Or.inl (hw c (List.mem_cons_self ..))⟩
  | leaf k v u =>
    simp only [emit, sep, Bool.false_eq_true, if_false, List.append_assoc,
      List.cons_append, List.nil_append]
    exact ⟨',', _, rfl, Or.inr (Or.inl rfl)⟩
  | node k a b u =>
    simp only [emit, sep, Bool.false_eq_true, if_false, List.append_assoc,
      List.cons_append, List.nil_append]
    exact ⟨',', _, rfl, Or.inr (Or.inl rfl)⟩

/-- The separator and the optional key in front of a value. -/
theorem pNext_key (p : Bool) (d : Nat) (array first : Bool) (k : Option Str) (c : Char) (s : Str)
    (hk : k.isNone = array) (hkc : ∀ u, k = some u → clean u)
    (h1 : isWs c = false) (h2 : c ≠ '}') (h3 : c ≠ ']') :
    ∃ s1, pNext array first (sep p d first ++ (keyText k ++ c :: s)) = some (some s1, []) ∧
      pOptKey array s1 = some (k, c :: s) := by
  cases k with
  | none =>
    have ha : array = true := by rw [← hk]; rfl
    refine ⟨c :: s, ?_, ?_⟩
    · simp only [keyText, List.nil_append]
      exact pNext_sep p d array first c s h1 h2 h3
    · rw [ha]; rfl
  | some u =>
    have ha : array = false := by rw [← hk]; rfl
    refine ⟨keyText (some u) ++ c :: s, ?_, ?_⟩
    · simp only [keyText, List.cons_append]
      exact pNext_sep p d array first '"' _ (by decide) (by decide) (by decide)
    · rw [ha]
      simp only [pOptKey, Bool.false_eq_true, if_false]
      rw [pKey_clean (hkc u rfl) c s h1]
      rfl

theorem pItems_emit (p : Bool) (t : Items Scalar) (fuel d : Nat) (array first : Bool) (w r : Str)
    (hf : t.size < fuel) (hk : t.keyed array) (hc : t.all clean cleanScalar) (hw : wsOnly w) :
    pItems fuel array first (emit p d first t ++ (w ++ closer array :: r)) =
      some (t.map denote, r) := by
  induction t generalizing fuel d array first w r with
  | nil =>
    obtain ⟨n, rfl⟩ : ∃ n, fuel = n + 1 := ⟨fuel - 1, by simp only [Items.size] at hf; omega⟩
    unfold pItems
    simp only [emit, List.nil_append]
    rw [pNext_end array first hw]
    rfl
  | leaf k v u ih =>
    simp only [Items.size] at hf
    simp only [Items.keyed] at hk
    simp only [Items.all] at hc
    obtain ⟨n, rfl⟩ : ∃ n, fuel = n + 1 := ⟨fuel - 1, by omega⟩
    have hrest := ih n d array false w r (by omega) hk.2 hc.2.2 hw
    have hstop := stops_rest p d u array hw r
    have hshape : emit p d first (.leaf k v u) ++ (w ++ closer array :: r) =
        sep p d first ++ (keyText k ++ (scalarText v ++ (emit p d false u ++ (w ++ closer array :: r)))) := by
      simp only [emit, List.append_assoc]
    rw [hshape]
    rcases scalar_cases v hc.2.1 _ hstop with ⟨x, hx, hxs, hxd⟩ | ⟨c, s, hcs, hpl, hat⟩
    · rw [hxs]
      obtain ⟨s1, hn, ho⟩ := pNext_key p d array first k '"' (x ++ '"' :: (emit p d false u ++ (w ++ closer array :: r)))
        hk.1 hc.1 (by decide) (by decide) (by decide)
      unfold pItems
      rw [hn]
      simp only []
      rw [ho]
      simp only []
      rw [if_neg (by decide), if_pos trivial, pStr_clean hx]
      simp only []
      rw [hrest]
      simp only [Items.map, hxd]
    · rw [hcs]
      obtain ⟨q1, q2, q3, q4, q5, q6, q7⟩ := hpl
      obtain ⟨s1, hn, ho⟩ := pNext_key p d array first k c s hk.1 hc.1 q1 q5 q6
      unfold pItems
      rw [hn]
      simp only []
      rw [ho]
      simp only []
      rw [if_neg (fun h => h.elim q2 q3), if_neg q4, hat]
      simp only []
      rw [hrest]
      rfl
  | node k a b u ihb ihu =>
    simp only [Items.size] at hf
    simp only [Items.keyed] at hk
    simp only [Items.all] at hc
    obtain ⟨n, rfl⟩ : ∃ n, fuel = n + 1 := ⟨fuel - 1, by omega⟩
    have hbody := ihb n (d + 1) a true (ind p d) (emit p d false u ++ (w ++ closer array :: r))
      (by omega) hk.2.1 hc.2.1 (ind_ws p d)
    have hrest := ihu n d array false w r (by omega) hk.2.2 hc.2.2 hw
    have hshape : emit p d first (.node k a b u) ++ (w ++ closer array :: r) =
        sep p d first ++ (keyText k ++ opener a ::
          (emit p (d + 1) true b ++ (ind p d ++ closer a ::
            (emit p d false u ++ (w ++ closer array :: r))))) := by
      simp only [emit, List.append_assoc, List.cons_append, List.nil_append]
    rw [hshape]
    have ho1 : isWs (opener a) = false := by cases a <;> decide
    have ho2 : opener a ≠ '}' := by cases a <;> decide
    have ho3 : opener a ≠ ']' := by cases a <;> decide
    obtain ⟨s1, hn, ho⟩ := pNext_key p d array first k (opener a) _ hk.1 hc.1 ho1 ho2 ho3
    unfold pItems
    rw [hn]
    simp only []
    rw [ho]
    simp only []
    have hop : decide (opener a = '[') = a := by cases a <;> decide
    rw [if_pos (by cases a <;> simp [opener]), hop, hbody]
    simp only []
    rw [hrest]
    rfl

/-- Every member takes at least one character. -/
theorem size_le_emit (p : Bool) (t : Items Scalar) (d : Nat) (first : Bool)
    (hc : t.all clean cleanScalar) : t.size ≤ (emit p d first t).length := by
  induction t generalizing d first with
  | nil => exact Nat.zero_le _
  | leaf k v u ih =>
    simp only [Items.all] at hc
    have h1 := ih d false hc.2.2
    have h2 : 0 < (scalarText v).length := by
      have : stops [','] := ⟨',', [], rfl, Or.inr (Or.inl rfl)⟩
      rcases scalar_cases v hc.2.1 [','] this with ⟨x, _, hxs, _⟩ | ⟨c, s, hcs, hpl, _⟩
      · cases hv : scalarText v with
        | nil => rw [hv] at hxs; simp at hxs
        | cons _ _ => simp
      · cases hv : scalarText v with
        | nil =>
          rw [hv] at hcs
          simp only [List.nil_append, List.cons.injEq] at hcs
          exact absurd hcs.1.symm hpl.2.2.2.2.2.2
        | cons _ _ => simp
    simp only [Items.size, emit, List.length_append]
    omega
  | node k a b u ihb ihu =>
    simp only [Items.all] at hc
    have h1 := ihb (d + 1) true hc.2.1
    have h2 := ihu d false hc.2.2
    simp only [Items.size, emit, List.length_append, List.length_cons, List.length_nil]
    omega

end Verif.Json
