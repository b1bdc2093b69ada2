import Verif.PlParamModel

/-!
# The notation of numbers, and lemmas on reading them
-/

namespace Verif.PlParam

/-! ## Specification: numerals -/

/-- The three forms of a numeral: decimal, octal with a leading zero, hexadecimal with `0x` or `0X`. -/
inductive Form
  | dec | oct
  | hex (upper : Bool)
  deriving DecidableEq, Repr

/-- A numeral: white space, a sign (`some true` is minus), the form, and the digits with the case of
their letters. -/
structure Numeral where
  ws : List Nat
  sgn : Option Bool
  form : Form
  digs : List (Nat × Bool)
  deriving DecidableEq, Repr

/-- The character of a digit. -/
def Numeral.chr (d : Nat × Bool) : Nat :=
  if d.1 < 10 then d.1 + 48 else if d.2 then d.1 + 55 else d.1 + 87

/-- The base. -/
def Form.base : Form → Nat
  | .dec => 10
  | .oct => 8
  | .hex _ => 16

/-- What stands before the digits. -/
def Form.lead : Form → List Nat
  | .dec => []
  | .oct => [48]
  | .hex u => [48, if u then 88 else 120]

/-- The sign as characters. -/
def Numeral.sign : Option Bool → List Nat
  | none => []
  | some true => [45]
  | some false => [43]

/-- The text of a numeral. -/
def Numeral.text (n : Numeral) : List Nat :=
  n.ws ++ (Numeral.sign n.sgn ++ (n.form.lead ++ n.digs.map Numeral.chr))

/-- Well-formed: the digits are below the base; a decimal numeral begins with another digit than zero, a
hexadecimal one has a digit. -/
structure Numeral.Ok (n : Numeral) : Prop where
  ws : ∀ c ∈ n.ws, c = 32 ∨ (9 ≤ c ∧ c ≤ 13)
  digs : ∀ d ∈ n.digs, d.1 < n.form.base
  dec : n.form = .dec → ∃ d r, n.digs = d :: r ∧ d.1 ≠ 0
  hex : ∀ u, n.form = .hex u → n.digs ≠ []

/-- The magnitude. -/
def Numeral.mag (n : Numeral) : Nat := n.digs.foldl (fun a d => a * n.form.base + d.1) 0

/-- The number a numeral stands for. -/
def Numeral.value (n : Numeral) : Int := if n.sgn = some true then -(n.mag : Int) else n.mag

/-! ## Lemmas -/

theorem digit_chr (d : Nat × Bool) (h : d.1 < 16) : digit (Numeral.chr d) = d.1 := by
  unfold digit Numeral.chr
  by_cases h1 : d.1 < 10
  · rw [if_pos h1, if_pos (by omega)]
    omega
  · rw [if_neg h1]
    by_cases h2 : d.2 = true
    · rw [if_pos h2, if_neg (by omega), if_neg (by omega), if_pos (by omega)]
      omega
    · rw [if_neg h2, if_neg (by omega), if_pos (by omega)]
      omega

theorem chr_digit (c : Nat) (h : digit c < 16) : ∃ u, Numeral.chr (digit c, u) = c := by
  unfold digit at *
  by_cases h1 : 48 ≤ c ∧ c ≤ 57
  · rw [if_pos h1] at *
    refine ⟨false, ?_⟩
    unfold Numeral.chr
    simp only []
    rw [if_pos (by omega)]
    omega
  · rw [if_neg h1] at *
    by_cases h2 : 97 ≤ c ∧ c ≤ 102
    · rw [if_pos h2] at *
      refine ⟨false, ?_⟩
      unfold Numeral.chr
      simp only []
      rw [if_neg (by omega), if_neg (by decide)]
      omega
    · rw [if_neg h2] at *
      by_cases h3 : 65 ≤ c ∧ c ≤ 70
      · rw [if_pos h3] at *
        refine ⟨true, ?_⟩
        unfold Numeral.chr
        simp only []
        rw [if_neg (by omega), if_pos trivial]
        omega
      · rw [if_neg h3] at h
        omega

theorem digits_map (base : Nat) (hb : base ≤ 16) : ∀ (ds : List (Nat × Bool)) (acc : Nat),
    (∀ d ∈ ds, d.1 < base) →
    digits base (ds.map Numeral.chr) acc = (ds.foldl (fun a d => a * base + d.1) acc, []) := by
  intro ds
  induction ds with
  | nil => intro acc _; rfl
  | cons d ds ih =>
    intro acc h
    have hd := h d List.mem_cons_self
    rw [List.map_cons]
    unfold digits
    rw [digit_chr d (by omega), if_pos hd, ih _ (fun x hx => h x (List.mem_cons_of_mem _ hx)),
      List.foldl_cons]

theorem digits_all (base : Nat) (hb : base ≤ 16) : ∀ (l : List Nat) (acc : Nat),
    (digits base l acc).2 = [] → ∃ ds : List (Nat × Bool), l = ds.map Numeral.chr ∧
      (∀ d ∈ ds, d.1 < base) ∧ (digits base l acc).1 = ds.foldl (fun a d => a * base + d.1) acc := by
  intro l
  induction l with
  | nil => intro acc _; exact ⟨[], rfl, (by intro d h; cases h), rfl⟩
  | cons c cs ih =>
    intro acc h
    unfold digits at h ⊢
    by_cases hd : digit c < base
    · rw [if_pos hd] at h ⊢
      obtain ⟨ds, h1, h2, h3⟩ := ih _ h
      obtain ⟨u, hu⟩ := chr_digit c (by omega)
      refine ⟨(digit c, u) :: ds, by rw [List.map_cons, hu, h1], ?_, h3⟩
      intro d hm
      rcases List.mem_cons.mp hm with rfl | hm
      · exact hd
      · exact h2 d hm
    · rw [if_neg hd] at h
      cases h

theorem isSpace_iff (c : Nat) : isSpace c = true ↔ c = 32 ∨ (9 ≤ c ∧ c ≤ 13) := by
  unfold isSpace
  simp

theorem dropWhile_ws (ws r : List Nat) (h : ∀ c ∈ ws, isSpace c = true)
    (hr : ∀ c t, r = c :: t → isSpace c = false) : (ws ++ r).dropWhile isSpace = r := by
  induction ws with
  | nil =>
    cases r with
    | nil => rfl
    | cons c t => rw [List.nil_append, List.dropWhile_cons_of_neg (by rw [hr c t rfl]; decide)]
  | cons w ws ih =>
    rw [List.cons_append, List.dropWhile_cons_of_pos (h w List.mem_cons_self)]
    exact ih fun c hc => h c (List.mem_cons_of_mem _ hc)

theorem prefixOf_three (x c : Nat) (r : List Nat) : prefixOf (48 :: x :: c :: r) =
    if (x = 120 ∨ x = 88) ∧ digit c < 16 then (16, c :: r) else (8, 48 :: x :: c :: r) := rfl

/-- The body of a numeral: prefix and digits. -/
theorem prefixOf_text (n : Numeral) (h : n.Ok) :
    (digits (prefixOf (n.form.lead ++ n.digs.map Numeral.chr)).1
      (prefixOf (n.form.lead ++ n.digs.map Numeral.chr)).2 0 = (n.mag, [])) ∧
    (prefixOf (n.form.lead ++ n.digs.map Numeral.chr)).2 ≠ [] := by
  cases hf : n.form with
  | dec =>
    obtain ⟨d, r, hd, hd0⟩ := h.dec hf
    have hlt : d.1 < 10 := by
      have := h.digs d (by rw [hd]; exact List.mem_cons_self)
      rw [hf] at this
      exact this
    have hp : prefixOf (n.digs.map Numeral.chr) = (10, n.digs.map Numeral.chr) := by
      rw [hd, List.map_cons]
      have hc : Numeral.chr d ≠ 48 := by
        unfold Numeral.chr
        rw [if_pos hlt]
        omega
      unfold prefixOf
      split
      · rename_i heq; injection heq with a b; exact (hc a).elim
      · rename_i heq; injection heq with a b; exact (hc a).elim
      · rfl
    unfold Form.lead
    simp only [List.nil_append]
    rw [hp]
    refine ⟨?_, by rw [hd]; simp⟩
    have hall := h.digs
    rw [hf] at hall
    rw [digits_map 10 (by decide) _ _ hall]
    unfold Numeral.mag
    rw [hf]
    rfl
  | oct =>
    have hall := h.digs
    rw [hf] at hall
    have hp : prefixOf ([48] ++ n.digs.map Numeral.chr) = (8, 48 :: n.digs.map Numeral.chr) := by
      have hnx : ∀ d ∈ n.digs, ¬ (Numeral.chr d = 120 ∨ Numeral.chr d = 88) := by
        intro d hd
        have : d.1 < 8 := hall d hd
        unfold Numeral.chr
        rw [if_pos (by omega)]
        omega
      cases hd : n.digs with
      | nil => rfl
      | cons d r =>
        have := hnx d (by rw [hd]; exact List.mem_cons_self)
        cases r with
        | nil => rfl
        | cons e r =>
          simp only [List.map_cons, List.cons_append, List.nil_append]
          rw [prefixOf_three, if_neg (fun h => this h.1)]
    unfold Form.lead
    simp only []
    rw [hp]
    refine ⟨?_, by simp⟩
    have := digits_map 8 (by decide) ((0, false) :: n.digs) 0 (by
      intro d hd
      rcases List.mem_cons.mp hd with rfl | hd
      · decide
      · exact hall d hd)
    have hc : Numeral.chr (0, false) = 48 := rfl
    rw [List.map_cons, hc, List.foldl_cons] at this
    rw [this]
    unfold Numeral.mag
    rw [hf]
    rfl
  | hex u =>
    have hall := h.digs
    rw [hf] at hall
    obtain ⟨d, r, hd⟩ := List.exists_cons_of_ne_nil (h.hex u hf)
    have hlt : d.1 < 16 := hall d (by rw [hd]; exact List.mem_cons_self)
    have hp : prefixOf ([48, if u then 88 else 120] ++ n.digs.map Numeral.chr) =
        (16, n.digs.map Numeral.chr) := by
      rw [hd]
      simp only [List.map_cons, List.cons_append, List.nil_append]
      rw [prefixOf_three, if_pos ⟨(by cases u <;> simp), (by rw [digit_chr d hlt]; exact hlt)⟩]
    unfold Form.lead
    simp only []
    rw [hp]
    refine ⟨?_, by rw [hd]; simp⟩
    rw [digits_map 16 (by decide) _ _ hall]
    unfold Numeral.mag
    rw [hf]
    rfl

/-- The first character of the body of a numeral is a digit. -/
theorem body_head (n : Numeral) (h : n.Ok) : ∃ c t, n.form.lead ++ n.digs.map Numeral.chr = c :: t ∧
    48 ≤ c := by
  cases hf : n.form with
  | dec =>
    obtain ⟨d, r, hd, -⟩ := h.dec hf
    refine ⟨Numeral.chr d, r.map Numeral.chr, by rw [hd]; rfl, ?_⟩
    unfold Numeral.chr
    split
    · omega
    · split <;> omega
  | oct => exact ⟨48, _, rfl, by decide⟩
  | hex u => exact ⟨48, _, rfl, by decide⟩

/-- Every numeral is read as its sign and magnitude. -/
theorem number_text (n : Numeral) (h : n.Ok) :
    number n.text = some (decide (n.sgn = some true), n.mag) := by
  obtain ⟨c, t, hct, hc⟩ := body_head n h
  have hdrop : n.text.dropWhile isSpace =
      Numeral.sign n.sgn ++ (n.form.lead ++ n.digs.map Numeral.chr) := by
    unfold Numeral.text
    apply dropWhile_ws
    · intro c hc
      rw [isSpace_iff]
      exact h.ws c hc
    · intro d s hs
      have : d = 45 ∨ d = 43 ∨ d = c := by
        rw [hct] at hs
        cases hg : n.sgn with
        | none =>
          rw [hg] at hs
          injection hs with a b
          exact Or.inr (Or.inr a.symm)
        | some b =>
          rw [hg] at hs
          cases b
          · injection hs with a b
            exact Or.inr (Or.inl a.symm)
          · injection hs with a b
            exact Or.inl a.symm
      cases hs : isSpace d with
      | false => rfl
      | true =>
        rw [isSpace_iff] at hs
        omega
  have hsign : sign (Numeral.sign n.sgn ++ (n.form.lead ++ n.digs.map Numeral.chr)) =
      (decide (n.sgn = some true), n.form.lead ++ n.digs.map Numeral.chr) := by
    cases hg : n.sgn with
    | none =>
      rw [hct]
      show sign (c :: t) = _
      unfold sign
      split
      · rename_i heq; injection heq with a b; omega
      · rename_i heq; injection heq with a b; omega
      · rfl
    | some b => cases b <;> rfl
  obtain ⟨h1, h2⟩ := prefixOf_text n h
  unfold number
  rw [hdrop, hsign]
  simp only []
  rw [h1, if_pos ⟨rfl, h2⟩]

/-- Only numerals are read. -/
theorem number_only (l : List Nat) (b : Bool) (m : Nat) (h : number l = some (b, m)) :
    ∃ n : Numeral, n.Ok ∧ n.text = l := by
  unfold number at h
  by_cases hc : (digits (prefixOf (sign (l.dropWhile isSpace)).2).1
      (prefixOf (sign (l.dropWhile isSpace)).2).2 0).2 = [] ∧
      (prefixOf (sign (l.dropWhile isSpace)).2).2 ≠ []
  · obtain ⟨hd, hne⟩ := hc
    have hl : l = l.takeWhile isSpace ++ l.dropWhile isSpace := List.takeWhile_append_dropWhile.symm
    have hws : ∀ c ∈ l.takeWhile isSpace, c = 32 ∨ (9 ≤ c ∧ c ≤ 13) := by
      intro c hc
      rw [← isSpace_iff]
      exact List.all_takeWhile (l := l) (p := isSpace) |> fun h => (List.all_eq_true.mp h) c hc
    obtain ⟨sg, hsg⟩ : ∃ sg, l.dropWhile isSpace = Numeral.sign sg ++ (sign (l.dropWhile isSpace)).2 := by
      generalize l.dropWhile isSpace = r
      unfold sign
      split
      · exact ⟨some true, rfl⟩
      · exact ⟨some false, rfl⟩
      · exact ⟨none, rfl⟩
    generalize (sign (l.dropWhile isSpace)).2 = body at *
    have key : ∃ (f : Form) (ds : List (Nat × Bool)), body = f.lead ++ ds.map Numeral.chr ∧
        (∀ d ∈ ds, d.1 < f.base) ∧ (f = .dec → ∃ d r, ds = d :: r ∧ d.1 ≠ 0) ∧
        (∀ u, f = .hex u → ds ≠ []) := by
      have octal : ∀ r, (digits 8 (48 :: r) 0).2 = [] → ∃ (f : Form) (ds : List (Nat × Bool)),
          48 :: r = f.lead ++ ds.map Numeral.chr ∧
          (∀ d ∈ ds, d.1 < f.base) ∧ (f = .dec → ∃ d r, ds = d :: r ∧ d.1 ≠ 0) ∧
          (∀ u, f = .hex u → ds ≠ []) := by
        intro r hr
        unfold digits at hr
        rw [if_pos (by decide)] at hr
        obtain ⟨ds, h1, h2, -⟩ := digits_all 8 (by decide) r _ hr
        exact ⟨.oct, ds, by rw [h1]; rfl, h2, (by intro h; cases h), (by intro u h; cases h)⟩
      unfold prefixOf at hd hne
      split at hd
      · rename_i x c r
        by_cases hx : (x = 120 ∨ x = 88) ∧ digit c < 16
        · rw [if_pos hx] at hd
          obtain ⟨ds, h1, h2, -⟩ := digits_all 16 (by decide) _ _ hd
          refine ⟨.hex (decide (x = 88)), ds, ?_, h2, (by intro h; cases h), ?_⟩
          · rw [h1.symm]
            rcases hx.1 with rfl | rfl <;> rfl
          · intro u _ h
            rw [h] at h1
            cases h1
        · rw [if_neg hx] at hd
          exact octal _ hd
      · exact octal _ hd
      · rename_i h1 h2
        simp only [] at hne
        obtain ⟨ds, g1, g2, -⟩ := digits_all 10 (by decide) _ _ hd
        refine ⟨.dec, ds, g1, g2, ?_, (by intro u h; cases h)⟩
        intro _
        cases hds : ds with
        | nil =>
          rw [hds] at g1
          exact (hne (by simpa using g1)).elim
        | cons d r =>
          refine ⟨d, r, rfl, ?_⟩
          intro h0
          rw [hds, List.map_cons] at g1
          have : Numeral.chr d = 48 := by
            unfold Numeral.chr
            rw [h0]
            rfl
          rw [this] at g1
          exact h2 _ g1
    obtain ⟨f, ds, k1, k2, k3, k4⟩ := key
    refine ⟨{ ws := l.takeWhile isSpace, sgn := sg, form := f, digs := ds }, ⟨hws, k2, k3, k4⟩, ?_⟩
    unfold Numeral.text
    simp only []
    rw [← k1, ← hsg, ← hl]
  · rw [if_neg hc] at h
    cases h

end Verif.PlParam
