import Verif.WillModel

/-!
# C152: the willingness follows the battery
-/

namespace Verif.Will

/-- The files of the power supplies: on AC power if one of them says so in its second word, otherwise not. -/
theorem C152_ac (fs : List (Option (List Tok))) (h : ∀ ts, some ts ∈ fs → ∀ t ∈ ts, t.length < 32) :
    ((∃ a b r, some (a :: b :: r) ∈ fs ∧ same b "on-line" = true) → acOn fs = some true) ∧
    ((¬ ∃ a b r, some (a :: b :: r) ∈ fs ∧ same b "on-line" = true) → acOn fs = some false) := by
  induction fs with
  | nil => exact ⟨fun ⟨_, _, _, hm, _⟩ => absurd hm (by simp), fun _ => rfl⟩
  | cons f fs ih =>
    have ih' := ih (fun ts hts => h ts (List.mem_cons_of_mem _ hts))
    have go : ∀ (_ : ∀ a b r, f = some (a :: b :: r) → ¬ same b "on-line" = true) (_ : acOn (f :: fs) = acOn fs),
        ((∃ a b r, some (a :: b :: r) ∈ f :: fs ∧ same b "on-line" = true) → acOn (f :: fs) = some true) ∧
        ((¬ ∃ a b r, some (a :: b :: r) ∈ f :: fs ∧ same b "on-line" = true) → acOn (f :: fs) = some false) := by
      intro hn e
      rw [e]
      refine ⟨fun ⟨a, b, r, hm, hb⟩ => ?_, fun hx => ih'.2 (fun ⟨a, b, r, hm, hb⟩ => hx ⟨a, b, r, List.mem_cons_of_mem _ hm, hb⟩)⟩
      rcases List.mem_cons.mp hm with q | q
      · exact absurd hb (hn a b r q.symm)
      · exact ih'.1 ⟨a, b, r, q, hb⟩
    cases f with
    | none => exact go (fun _ _ _ q => by cases q) rfl
    | some ts =>
      have hs : scan 2 ts = some (ts.take 2) := by
        unfold scan
        rw [if_pos]
        rw [List.all_eq_true]
        intro t ht
        exact decide_eq_true (h ts (by simp) t (List.mem_of_mem_take ht))
      have e0 : acOn (some ts :: fs) = (match scan 2 ts with
        | none => none
        | some [_, s2] => if same s2 "on-line" = true then some true else acOn fs
        | some _ => acOn fs) := rfl
      rw [hs] at e0
      match ts, e0 with
      | [], e0 => exact go (fun _ _ _ q => by cases q) e0
      | [a], e0 => exact go (fun _ _ _ q => by cases q) e0
      | a :: b :: r, e0 =>
        simp only [List.take_succ_cons, List.take_zero] at e0
        by_cases c : same b "on-line" = true
        · rw [if_pos c] at e0
          exact ⟨fun _ => e0, fun hx => absurd ⟨a, b, r, by simp, c⟩ hx⟩
        · rw [if_neg c] at e0
          exact go (fun a' b' r' q => by cases q; exact c) e0

private def w (s : String) : Tok := s.toList

example : acOn [none, some [w "state:", w "off-line"], some [w "state:", w "On-line"]] = some true := by decide

/-- The percentage is the part of the capacity, rounded downwards, for numbers of the usual size. -/
theorem C152_percent (mx v : Int) (h1 : 0 < mx) (h2 : mx ≤ 2147483647) (h3 : 0 ≤ v) (h4 : v ≤ mx) (h5 : v * 100 ≤ 2147483647) :
    ∃ p, percent mx v = some p ∧ 0 ≤ p ∧ p ≤ 100 ∧ p * mx ≤ 100 * v ∧ 100 * v < (p + 1) * mx := by
  unfold percent absInt
  rw [if_neg (by omega), if_neg (by omega), if_neg (by omega), if_neg (by omega)]
  simp only []
  rw [if_neg (show ¬ v > mx by omega), if_neg (show ¬ mx = 0 by omega)]
  by_cases c : v ≥ mx
  · have e : v = mx := by omega
    rw [if_pos c]
    refine ⟨100, rfl, by omega, by omega, by omega, by omega⟩
  · rw [if_neg c, if_neg (by omega)]
    have hd : Int.tdiv (v * 100) mx = v * 100 / mx := Int.tdiv_eq_ediv_of_nonneg (by omega)
    rw [hd]
    have e1 := Int.mul_ediv_add_emod (v * 100) mx
    have e2 := Int.emod_nonneg (v * 100) (show mx ≠ 0 by omega)
    have e3 := Int.emod_lt_of_pos (v * 100) h1
    have e4 : (v * 100 / mx + 1) * mx = mx * (v * 100 / mx) + mx := by rw [Int.add_mul, Int.one_mul, Int.mul_comm]
    have e5 : v * 100 / mx * mx = mx * (v * 100 / mx) := Int.mul_comm _ _
    refine ⟨_, rfl, Int.ediv_nonneg (by omega) (by omega), ?_, by omega, by omega⟩
    have : v * 100 / mx ≤ mx * 100 / mx := Int.ediv_le_ediv h1 (by omega)
    rwa [Int.mul_ediv_cancel_left _ (by omega)] at this

example : percent 4400 2200 = some 50 ∧ percent 0 7 = some 0 ∧ percent (-4400) 5000 = some 100 := by decide

/-- Signs do not matter; no capacity is 0 percent, and more than the capacity is 100; the smallest `int` is undefined. -/
theorem C152_percent_edges (mx v : Int) (h1 : -2147483648 < mx) (h1' : mx ≤ 2147483647) (h2 : -2147483648 < v)
    (h2' : v ≤ 2147483647) :
    percent (-mx) v = percent mx v ∧ percent mx (-v) = percent mx v ∧ percent 0 v = some 0 ∧
    (0 < mx → mx ≤ v → percent mx v = some 100) ∧ percent (-2147483648) v = none ∧
    percent mx (-2147483648) = none := by
  have ab : ∀ x : Int, -2147483648 < x → x ≤ 2147483647 → absInt (-x) = absInt x := by
    intro x hx hx'
    unfold absInt
    rw [if_neg (show ¬ -x = -2147483648 by omega), if_neg (show ¬ x = -2147483648 by omega)]
    congr 1
    (repeat' split) <;> omega
  have e1 := ab mx h1 h1'
  have e2 := ab v h2 h2'
  refine ⟨?_, ?_, ?_, fun q1 q2 => ?_, ?_, ?_⟩
  · unfold percent; rw [e1]
  · unfold percent; rw [e2]
  · unfold percent absInt
    rw [if_neg (show ¬ v = -2147483648 by omega)]
    rfl
  · unfold percent absInt
    rw [if_neg (by omega), if_neg (by omega), if_neg (by omega), if_neg (by omega)]
    simp only []
    rw [if_neg (show ¬ mx = 0 by omega), if_pos (by split <;> omega)]
  · rfl
  · unfold percent
    rw [show absInt (-2147483648) = none from rfl]
    split
    · next h => cases h
    · rfl

/-- The usual files of a battery are understood. -/
theorem C152_files (t u x y : Tok) (m v : Int) (ac : List (Option (List Tok))) (on : Bool) (ht : atoi t = some m) (hu : atoi u = some v)
    (lt : t.length < 32) (lu : u.length < 32) (lx : x.length < 32) (ly : y.length < 32) (hac : acOn ac = some on) (bs : List Bat) (p : Int)
    (hp : percent m v = some p) :
    readAcpi ac (⟨none, none⟩ :: ⟨some [[w "present:", w "no"]], some []⟩ ::
      ⟨some [[w "present:", w "yes"], [w "design", w "capacity:", x, y], [w "last", w "full", w "capacity:", t, y]],
        some [[w "present:", w "yes"], [w "remaining", w "capacity:", u, y]]⟩ :: bs) = some (some ⟨on, p⟩) := by
  have s0 : scan 2 [w "present:", w "no"] = some [w "present:", w "no"] := by decide
  have s1 : scan 2 [w "present:", w "yes", w "design", w "capacity:", x, y, w "last", w "full", w "capacity:", t, y] =
      some [w "present:", w "yes"] := if_pos (by simp [w])
  have s2 : scan 4 [w "present:", w "yes"] = some [w "present:", w "yes"] := by decide
  have s3 : scan 4 [w "design", w "capacity:", x, y] = some [w "design", w "capacity:", x, y] :=
    if_pos (by simp [w, lx, ly])
  have s4 : scan 4 [w "last", w "full", w "capacity:", t, y] = some [w "last", w "full", w "capacity:", t] :=
    if_pos (by simp [w, lt])
  have s5 : scan 4 [w "remaining", w "capacity:", u, y] = some [w "remaining", w "capacity:", u, y] :=
    if_pos (by simp [w, lu, ly])
  have d1 : same (w "present:") "present:" = true := by decide
  have d2 : same (w "no") "no" = true := by decide
  have d3 : same (w "yes") "no" = false := by decide
  have d4 : same (w "yes") "full" = false := by decide
  have d5 : same (w "capacity:") "full" = false := by decide
  have d6 : same (w "full") "full" = true := by decide
  have d7 : same (w "present:") "remaining" = false := by decide
  have d8 : same (w "remaining") "remaining" = true := by decide
  simp [readAcpi, hac, pick, s0, s1, s2, s3, s4, s5, d1, d2, d3, d4, d5, d6, d7, d8, readMax, readVal, ht, hu, hp]

/-- Lines without the words that are looked for leave the capacity at 5000 and the rest at 0. -/
theorem C152_default (ls : List (List Tok)) (h : ∀ l ∈ ls, ∀ t ∈ l, t.length < 32)
    (h2 : ∀ l ∈ ls, ∃ a b r, l = a :: b :: r ∧ same b "full" = false ∧ same a "remaining" = false) :
    readMax 5000 ls = some 5000 ∧ readVal 0 ls = some 0 := by
  induction ls with
  | nil => exact ⟨rfl, rfl⟩
  | cons l ls ih =>
    have ih' := ih (fun x hx => h x (List.mem_cons_of_mem _ hx)) (fun x hx => h2 x (List.mem_cons_of_mem _ hx))
    obtain ⟨a, b, r, e, hb, ha⟩ := h2 l (by simp)
    have hs : scan 4 l = some (a :: b :: r.take 2) := by
      unfold scan
      rw [if_pos]
      · rw [e]; rfl
      · rw [List.all_eq_true]
        intro t ht
        exact decide_eq_true (h l (by simp) t (List.mem_of_mem_take ht))
    constructor
    · unfold readMax
      rw [hs]
      simp only []
      rw [if_neg (by rw [hb]; decide)]
      exact ih'.1
    · unfold readVal
      rw [hs]
      simp only []
      rw [if_neg (by rw [ha]; decide)]
      exact ih'.2

/-- A battery that does not tell its capacity has one of 5000, and one that does not tell what is left has nothing. -/
theorem C152_default_percent (t u : Tok) (m v : Int) (ac : List (Option (List Tok))) (on : Bool) (ht : atoi t = some m) (hu : atoi u = some v)
    (lt : t.length < 32) (lu : u.length < 32) (hac : acOn ac = some on) (h1 : 0 ≤ v) (h2 : v ≤ 5000) (h3 : 0 < m) (h4 : m ≤ 2147483647)
    (bs : List Bat) :
    readAcpi ac (⟨some [[w "present:", w "yes"]], some [[w "remaining", w "capacity:", u]]⟩ :: bs) = some (some ⟨on, v / 50⟩) ∧
    readAcpi ac (⟨some [[w "last", w "full", w "capacity:", t]], some [[w "present:", w "yes"]]⟩ :: bs) = some (some ⟨on, 0⟩) := by
  have s1 : scan 2 [w "present:", w "yes"] = some [w "present:", w "yes"] := by decide
  have s2 : scan 4 [w "present:", w "yes"] = some [w "present:", w "yes"] := by decide
  have s3 : scan 4 [w "remaining", w "capacity:", u] = some [w "remaining", w "capacity:", u] := if_pos (by simp [w, lu])
  have s4 : scan 4 [w "last", w "full", w "capacity:", t] = some [w "last", w "full", w "capacity:", t] := if_pos (by simp [w, lt])
  have s5 : scan 2 [w "last", w "full", w "capacity:", t] = some [w "last", w "full"] := if_pos (by simp [w])
  have d1 : same (w "yes") "no" = false := by decide
  have d2 : same (w "yes") "full" = false := by decide
  have d3 : same (w "present:") "remaining" = false := by decide
  have d4 : same (w "remaining") "remaining" = true := by decide
  have d5 : same (w "full") "full" = true := by decide
  have d6 : same (w "full") "no" = false := by decide
  have p1 : percent 5000 v = some (v / 50) := by
    obtain ⟨p, e, _, _, e3, e4⟩ := C152_percent 5000 v (by decide) (by decide) h1 h2 (by omega)
    rw [e]
    congr 1
    omega
  have p2 : percent m 0 = some 0 := by
    obtain ⟨p, e, e1, _, e3, e4⟩ := C152_percent m 0 h3 h4 (by omega) (by omega) (by omega)
    rw [e]
    congr 1
    by_cases c : 0 < p
    · have := Int.mul_pos c h3
      omega
    · omega
  constructor
  · simp [readAcpi, hac, pick, s1, s2, s3, d1, d2, d4, readMax, readVal, hu, p1]
  · simp [readAcpi, hac, pick, s2, s4, s5, d3, d5, d6, readMax, readVal, ht, p2]

example : same (w "yes") "full" = false ∧ same (w "present:") "remaining" = false := by decide

example : atoi (w "4400") = some 4400 ∧ atoi (w "-12mAh") = some (-12) ∧ atoi (w "99999999999") = none := by decide +kernel

/-- The digit of a number. -/
def digit (d : Nat) : Char := Char.ofNat (48 + d)

/-- The number that digits are. -/
def value (ds : List Nat) : Nat := ds.foldl (fun n d => 10 * n + d) 0

private theorem digit_ok (d : Nat) (h : d < 10) : (digit d).isDigit = true ∧ (digit d).toNat - 48 = d ∧ digit d ≠ '-' ∧ digit d ≠ '+' := by
  have : ∀ x : Fin 10, (digit x.1).isDigit = true ∧ (digit x.1).toNat - 48 = x.1 ∧ digit x.1 ≠ '-' ∧ digit x.1 ≠ '+' := by decide
  exact this ⟨d, h⟩

private theorem digits_ok (rest : Tok) (hr : ∀ c r, rest = c :: r → c.isDigit = false) (ds : List Nat) (h : ∀ d ∈ ds, d < 10) (n : Nat) :
    digits n (ds.map digit ++ rest) = (ds.foldl (fun n d => 10 * n + d) n : Nat) := by
  induction ds generalizing n with
  | nil =>
    match rest, hr with
    | [], _ => rfl
    | c :: r, hr =>
      show (if c.isDigit = true then _ else (n : Int)) = n
      rw [if_neg (by rw [hr c r rfl]; decide)]
  | cons d ds ih =>
    have hd := digit_ok d (h d (by simp))
    show (if (digit d).isDigit = true then digits ((n : Int) * 10 + ((digit d).toNat - 48 : Nat)) (ds.map digit ++ rest) else _) = _
    rw [if_pos hd.1, hd.2.1]
    have e : (n : Int) * 10 + (d : Nat) = ((10 * n + d : Nat) : Int) := by omega
    rw [e]
    exact ih (fun x hx => h x (List.mem_cons_of_mem _ hx)) _

/-- A decimal number, with or without a sign and with anything behind it, is read as that number if it is an `int`. -/
theorem C152_number (ds : List Nat) (h : ∀ d ∈ ds, d < 10) (h0 : ds ≠ []) (rest : Tok) (hr : ∀ c r, rest = c :: r → c.isDigit = false) :
    (value ds < 2147483648 → atoi (ds.map digit ++ rest) = some (value ds : Int)) ∧
    (2147483648 ≤ value ds → atoi (ds.map digit ++ rest) = none) ∧
    (value ds ≤ 2147483648 → atoi ('-' :: (ds.map digit ++ rest)) = some (- (value ds : Int))) ∧
    (2147483648 < value ds → atoi ('-' :: (ds.map digit ++ rest)) = none) := by
  have k := digits_ok rest hr ds h 0
  have e1 : atoi (ds.map digit ++ rest) =
      if -2147483648 ≤ digits 0 (ds.map digit ++ rest) ∧ digits 0 (ds.map digit ++ rest) ≤ 2147483647 then
        some (digits 0 (ds.map digit ++ rest)) else none := by
    match ds, h0, h with
    | d :: ds, _, h =>
      have hd := digit_ok d (h d (by simp))
      obtain ⟨c, hc⟩ : ∃ c, c = digit d := ⟨_, rfl⟩
      simp only [List.map_cons, List.cons_append]
      rw [← hc] at hd ⊢
      unfold atoi
      split
      · next e => injection e with e _; exact absurd e hd.2.2.1
      · next e => injection e with e _; exact absurd e hd.2.2.2
      · rfl
  have e2 : atoi ('-' :: (ds.map digit ++ rest)) =
      if -2147483648 ≤ - digits 0 (ds.map digit ++ rest) ∧ - digits 0 (ds.map digit ++ rest) ≤ 2147483647 then
        some (- digits 0 (ds.map digit ++ rest)) else none := rfl
  rw [e1, e2, show digits 0 (ds.map digit ++ rest) = (value ds : Nat) from k]
  refine ⟨fun q => ?_, fun q => ?_, fun q => ?_, fun q => ?_⟩
  · rw [if_pos (by omega)]
  · rw [if_neg (by omega)]
  · rw [if_pos (by omega)]
  · rw [if_neg (by omega)]

example : w "4400mAh" = [4, 4, 0, 0].map digit ++ w "mAh" ∧ value [4, 4, 0, 0] = 4400 := by decide

/-- The words are understood with small and with capital letters. -/
theorem C152_case : same (w "On-Line") "on-line" = true ∧ same (w "PRESENT:") "present:" = true ∧ same (w "NO") "no" = true ∧
    same (w "Full") "full" = true ∧ same (w "Remaining") "remaining" = true ∧ same (w "off-line") "on-line" = false ∧
    same (w "on-line2") "on-line" = false := by decide

/-- What the comment of `olsr_calculate_willingness` says for a battery. -/
def documented (pct : Nat) : Nat := if pct > 78 then 3 else if pct > 26 then 2 else 1

/-- The willingness is the fixed one, or 3 without information, or 6 on AC power; on a battery it is between 0 and 3, grows with
the charge, and is as documented only above 78 percent, from 52 to 77 percent, and at 26. -/
theorem C152_willingness_partial (fixed : Nat) (q : Power) (c p p' : Nat) (hp : p ≤ 100) (hpp : p' ≤ p) :
    will false fixed q = fixed ∧ will true fixed .nothing = 3 ∧ will true fixed (.info ⟨true, c⟩) = 6 ∧
    will true fixed (.info ⟨false, p⟩) ≤ 3 ∧
    will true fixed (.info ⟨false, p'⟩) ≤ will true fixed (.info ⟨false, p⟩) ∧
    (will true fixed (.info ⟨false, p⟩) = documented p ↔ 78 < p ∨ (52 ≤ p ∧ p ≤ 77) ∨ p = 26) := by
  have key : ∀ n : Nat, n ≤ 100 → will true fixed (.info ⟨false, (n : Int)⟩) = n / 26 := by
    intro n hn
    show (Int.tdiv (n : Int) 26 % 256).toNat = n / 26
    rw [Int.tdiv_eq_ediv_of_nonneg (by omega)]
    omega
  refine ⟨rfl, rfl, rfl, ?_, ?_, ?_⟩
  · rw [key p hp]; omega
  · rw [key p hp, key p' (by omega)]; omega
  · rw [key p hp]
    unfold documented
    (repeat' split) <;> omega

example : will true 3 (.info ⟨false, 60⟩) = 2 ∧ documented 60 = 2 := by decide

/-- With a quarter of its charge a node is never chosen as MPR, though the comment says 1; and at 40 percent it is 1, not 2. -/
theorem C152_low_negation : will true 3 (.info ⟨false, 25⟩) = 0 ∧ documented 25 = 1 ∧ will true 3 (.info ⟨false, 40⟩) = 1 ∧
    documented 40 = 2 := by decide

/-- With ACPI the result is one of 0, 1, 2, 3 and 6, whatever the files hold, unless the behaviour is undefined. -/
theorem C152_range (fixed : Nat) (ac : List (Option (List Tok))) (bats : List Bat) (i : Info) (h : readAcpi ac bats = some (some i)) :
    will true fixed (.info i) ≤ 3 ∨ will true fixed (.info i) = 6 := by
  cases hac : i.ac with
  | true =>
    right
    show (if i.ac = true then 6 else _) = 6
    rw [if_pos hac]
  | false =>
    left
    have hp : 0 ≤ i.pct ∧ i.pct ≤ 100 := by
      unfold readAcpi at h
      split at h
      · cases h
      · next on _ =>
        split at h
        · cases h
        · split at h
          · cases h; cases hac
          · cases h
        · split at h
          · cases h
          · split at h
            · cases h
            · split at h
              · cases h
              · next p hp =>
                cases h
                simp only []
                unfold percent absInt at hp
                split at hp
                · next m w' e1 e2 =>
                  split at e1
                  · cases e1
                  · split at e2
                    · cases e2
                    · simp only [Option.some.injEq] at e1 e2
                      have hm : 0 ≤ m := by rw [← e1]; split <;> omega
                      have hw : 0 ≤ w' := by rw [← e2]; split <;> omega
                      obtain ⟨z, hz⟩ : ∃ z, z = (if w' > m then m else w') := ⟨_, rfl⟩
                      have hz0 : 0 ≤ z := by rw [hz]; split <;> omega
                      simp only [] at hp
                      rw [← hz] at hp
                      clear hz
                      split at hp
                      · cases hp; omega
                      · next hm0 =>
                        split at hp
                        · cases hp; omega
                        · next hlt =>
                          split at hp
                          · cases hp
                          · simp only [Option.some.injEq] at hp
                            rw [← hp, Int.tdiv_eq_ediv_of_nonneg (by omega)]
                            refine ⟨Int.ediv_nonneg (by omega) (by omega), ?_⟩
                            have : z * 100 / m ≤ m * 100 / m := Int.ediv_le_ediv (by omega) (by omega)
                            rwa [Int.mul_ediv_cancel_left _ (by omega)] at this
                · cases hp
    show (if i.ac = true then 6 else (Int.tdiv i.pct 26 % 256).toNat) ≤ 3
    rw [if_neg (by rw [hac]; simp), Int.tdiv_eq_ediv_of_nonneg hp.1]
    omega

example : readAcpi [none] [⟨some [[w "present:", w "yes"], [w "last", w "full", w "capacity:", w "4000"]],
    some [[w "Remaining", w "capacity:", w "3000"]]⟩] = some (some ⟨false, 75⟩) := by decide +kernel

/-- With APM it need not be a willingness: a percentage of −26 becomes 255. -/
theorem C152_range_negation : will true 3 (.info (readApm 0 (-26))) = 255 := by decide

/-- Undefined behaviour: a word of 32 letters; a large capacity; a line with one word. -/
theorem C152_undefined : scan 2 [w "state:", List.replicate 32 'x'] = none ∧ percent 40000000 30000000 = none ∧
    readMax 5000 [[w "present:"]] = none ∧ readVal 0 [[w "remaining", w "capacity:"]] = none := by decide +kernel

/-- APM: the line status decides, and a percentage above 100 is unknown. -/
theorem C152_apm (fixed : Nat) (a p : Int) :
    (a ≠ 0 → will true fixed (.info (readApm a p)) = 6) ∧
    (a = 0 → 0 ≤ p → p ≤ 100 → will true fixed (.info (readApm a p)) = (p / 26).toNat) ∧
    (a = 0 → 100 < p → will true fixed (.info (readApm a p)) = 0) := by
  refine ⟨fun h => ?_, fun h h1 h2 => ?_, fun h h1 => ?_⟩
  · show (if decide (a ≠ 0) = true then 6 else _) = 6
    rw [if_pos (by simpa using h)]
  · subst h
    show (Int.tdiv (if p > 100 then -1 else p) 26 % 256).toNat = _
    rw [if_neg (by omega), Int.tdiv_eq_ediv_of_nonneg h1]
    omega
  · subst h
    show (Int.tdiv (if p > 100 then -1 else p) 26 % 256).toNat = _
    rw [if_pos (by omega)]
    decide

example : will true 3 (.info (readApm 0 60)) = 2 := by decide

/-- Without a battery: AC power, or nothing is known. -/
theorem C152_no_battery (ac : List (Option (List Tok))) (on : Bool) (h : acOn ac = some on) (bats : List Bat)
    (hb : ∀ b ∈ bats, b.info = none ∨ (b.state = none ∧ ∃ l, b.info = some [l] ∧ ∀ t ∈ l, t.length < 32)) :
    readAcpi ac bats = some (if on = true then some ⟨true, -1⟩ else none) := by
  have hp : pick bats = some none := by
    induction bats with
    | nil => rfl
    | cons b bs ih =>
      have ih' := ih (fun x hx => hb x (List.mem_cons_of_mem _ hx))
      unfold pick
      rcases hb b (by simp) with e | ⟨e1, l, e2, e3⟩
      · rw [e]; exact ih'
      · rw [e2]
        have hs : scan 2 [l].flatten = some (l.take 2) := by
          unfold scan
          rw [show [l].flatten = l from by simp, if_pos]
          rw [List.all_eq_true]
          intro t ht
          exact decide_eq_true (e3 t (List.mem_of_mem_take ht))
        simp only []
        rw [hs]
        match l with
        | [] => simp only [List.take_nil]; exact ih'
        | [a] => simp only [List.take_succ_cons, List.take_nil]; exact ih'
        | a :: b' :: r =>
          simp only [List.take_succ_cons, List.take_zero]
          rw [e1]
          simp only []
          split <;> exact ih'
  unfold readAcpi
  rw [h, hp]
  simp only []
  cases on <;> rfl

example : readAcpi [some [w "state:", w "on-line"]] [⟨none, none⟩] = some (some ⟨true, -1⟩) := by decide

end Verif.Will
