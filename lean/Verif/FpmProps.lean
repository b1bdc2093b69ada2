import Verif.FpmModel

/-!
# C149: the fixed point numbers
-/

namespace Verif.Fpm

/-- The numbers of a `long`. -/
def Long (x : Int) : Prop := -9223372036854775808 ≤ x ∧ x ≤ 9223372036854775807

private theorem signed_ok {x : Int} (h : Long x) : signed x = .ok x := if_pos h

private theorem signed_ub {x : Int} (h : ¬ Long x) : signed x = .ub := if_neg h

/-- An integer becomes a fixed point number exactly if it fits, and comes back; otherwise the program is stopped. -/
theorem C149_integer (i : Int) :
    (Long (i * 1024) → itofpm i = .ok (i * 1024)) ∧ (¬ Long (i * 1024) → itofpm i = .abort) ∧
    (-2147483648 ≤ i → i ≤ 2147483647 → itofpm i = .ok (i * 1024) ∧ fpmtoi (i * 1024) = i) := by
  have main : Long (i * 1024) → itofpm i = .ok (i * 1024) := by
    intro h
    unfold itofpm
    have h' := h
    unfold Long at h'
    rw [if_pos (by unfold fpmMin fpmMax; omega)]
    exact signed_ok h
  refine ⟨main, fun h => ?_, fun h1 h2 => ⟨main (by unfold Long; omega), ?_⟩⟩
  · unfold itofpm
    unfold Long at h
    rw [if_neg (by unfold fpmMin fpmMax; omega)]
  · unfold fpmtoi; omega

example : itofpm (-9007199254740992) = .ok (-9223372036854775808) ∧ itofpm 9007199254740992 = .abort := by decide

/-- The sum is exact if it fits; otherwise the program is stopped. -/
theorem C149_sum (a b : Int) (ha : Long a) (hb : Long b) :
    (Long (a + b) → fpmadd a b = .ok (a + b)) ∧ (¬ Long (a + b) → fpmadd a b = .abort) := by
  unfold Long at ha hb
  refine ⟨fun h => ?_, fun h => ?_⟩
  · have h' := h
    unfold Long at h'
    unfold fpmadd
    rw [if_neg (by unfold intMax; omega), if_neg (by unfold intMin; omega)]
    exact signed_ok h
  · unfold Long at h
    unfold fpmadd
    by_cases c : ¬ (0 > a ∨ 0 > b ∨ intMax - a ≥ b)
    · rw [if_pos c]
    · rw [if_neg c, if_pos (by unfold intMax at c; unfold intMin; omega)]

example : fpmadd 9223372036854775807 1 = .abort ∧ fpmadd 9223372036854775807 0 = .ok 9223372036854775807 := by decide

/-- The difference is exact if it fits and is not the greatest number; if it does not fit the program is stopped. -/
theorem C149_difference_partial (a b : Int) (ha : Long a) (hb : Long b) :
    (Long (a - b) → a - b ≠ 9223372036854775807 → fpmsub a b = .ok (a - b)) ∧ (¬ Long (a - b) → fpmsub a b = .abort) := by
  unfold Long at ha hb
  refine ⟨fun h hm => ?_, fun h => ?_⟩
  · have h' := h
    unfold Long at h'
    unfold fpmsub
    rw [if_neg (by unfold intMax; omega), if_neg (by unfold intMin; omega)]
    exact signed_ok h
  · unfold Long at h
    unfold fpmsub
    by_cases c : ¬ (0 > a ∨ 0 ≤ b ∨ a < intMax + b)
    · rw [if_pos c]
    · rw [if_neg c, if_pos (by unfold intMax at c; unfold intMin; omega)]

example : fpmsub (-9223372036854775808) 1 = .abort ∧ fpmsub 1024 2048 = .ok (-1024) := by decide

/-- A difference that fits but stops the program: the assertion has `<` for `<=`. -/
theorem C149_difference_negation :
    ¬ ∀ a b, Long a → Long b → Long (a - b) → fpmsub a b = .ok (a - b) := by
  intro h
  have := h 9223372036854775806 (-1) (by unfold Long; omega) (by unfold Long; omega) (by unfold Long; omega)
  revert this
  decide

private theorem assert_iff (a b : Int) : mulAssert a b = true ↔ (-9223372036854775808 ≤ a * b ∧ a * b ≤ 9223372036854775808) := by
  have sgn : (0 < a ∧ 0 < b → 0 < a * b) ∧ (0 < a ∧ ¬ 0 < b → a * b ≤ 0) ∧ (¬ 0 < a ∧ 0 < b → a * b ≤ 0) ∧
      (¬ 0 < a ∧ ¬ 0 < b → 0 ≤ a * b) := by
    refine ⟨fun h => Int.mul_pos h.1 h.2, fun h => ?_, fun h => ?_, fun h => ?_⟩
    · exact Int.mul_nonpos_of_nonneg_of_nonpos (by omega) (by omega)
    · exact Int.mul_nonpos_of_nonpos_of_nonneg (by omega) (by omega)
    · exact Int.mul_nonneg_of_nonpos_of_nonpos (by omega) (by omega)
  obtain ⟨x, hx⟩ : ∃ x, x = a * b := ⟨_, rfl⟩
  unfold mulAssert dMax intMin
  rw [← hx] at sgn ⊢
  by_cases h1 : 0 < a <;> by_cases h2 : 0 < b <;> simp [h1, h2] <;> omega

/-- The product is exact up to the rounding downwards, if it fits before the rounding; the program is stopped if it does not,
unless it is 2^63. -/
theorem C149_product_partial (a b : Int) :
    (Long (a * b) → ∃ r, fpmmul a b = .ok r ∧ r * 1024 ≤ a * b ∧ a * b < (r + 1) * 1024) ∧
    (¬ Long (a * b) → a * b ≠ 9223372036854775808 → fpmmul a b = .abort) ∧
    (Long (a * b) → fpmmuli a b = .ok (a * b)) ∧
    (¬ Long (a * b) → a * b ≠ 9223372036854775808 → fpmmuli a b = .abort) := by
  have hA := assert_iff a b
  refine ⟨fun h => ?_, fun h hn => ?_, fun h => ?_, fun h hn => ?_⟩
  · have h' := h
    unfold Long at h'
    unfold fpmmul mulDef
    rw [if_pos (hA.mpr (by omega)), signed_ok h]
    refine ⟨_, rfl, ?_, ?_⟩
    · omega
    · omega
  · unfold Long at h
    unfold fpmmul
    rw [if_neg (fun c => by have := hA.mp c; omega)]
  · have h' := h
    unfold Long at h'
    unfold fpmmuli muliDef
    rw [if_pos (hA.mpr (by omega)), signed_ok h]
  · unfold Long at h
    unfold fpmmuli
    rw [if_neg (fun c => by have := hA.mp c; omega)]

example : fpmmul 1536 (-512) = .ok (-768) ∧ fpmmul 1 (-1) = .ok (-1) ∧ fpmmul 4294967296 4294967296 = .abort := by decide

/-- The product 2^63 passes the assertion and overflows. -/
theorem C149_product_negation : fpmmul 4294967296 2147483648 = .ub ∧ fpmmuli 4294967296 (-2147483648) = .ok (-9223372036854775808) ∧
    fpmmuli (-4294967296) (-2147483648) = .ub := by decide

private theorem tdiv_spec (x b : Int) (hb : b ≠ 0) :
    (Int.tdiv x b * b - x).natAbs < b.natAbs ∧ (Int.tdiv x b * b).natAbs ≤ x.natAbs := by
  have h1 := Int.mul_tdiv_add_tmod x b
  have h2 : (Int.tmod x b).natAbs < b.natAbs := by
    rw [Int.natAbs_tmod]
    exact Nat.mod_lt _ (by omega)
  have hc : b * Int.tdiv x b = Int.tdiv x b * b := Int.mul_comm _ _
  rw [hc] at h1
  refine ⟨by omega, ?_⟩
  rw [Int.natAbs_mul, Int.natAbs_tdiv]
  exact Nat.div_mul_le_self _ _

/-- The quotient by an integer is rounded towards zero, if it fits. -/
theorem C149_quotient_integer (a b : Int) (ha : Long a) (hb : b ≠ 0) (hm : ¬ (a = -9223372036854775808 ∧ b = -1)) :
    ∃ r, idivDef a b = .ok r ∧ (r * b - a).natAbs < b.natAbs ∧ (r * b).natAbs ≤ a.natAbs := by
  have hs := tdiv_spec a b hb
  have hle : (Int.tdiv a b).natAbs ≤ a.natAbs := by
    rw [Int.natAbs_tdiv]; exact Nat.div_le_self _ _
  have hL : Long (Int.tdiv a b) := by
    unfold Long at ha ⊢
    refine ⟨by omega, ?_⟩
    by_cases hx : Int.tdiv a b ≤ 9223372036854775807
    · exact hx
    · have e : Int.tdiv a b = 9223372036854775808 := by omega
      have ea : a = -9223372036854775808 := by omega
      rw [e] at hs
      exfalso
      have := hs.1
      have := hs.2
      exact hm ⟨ea, by omega⟩
  refine ⟨_, ?_, hs⟩
  unfold idivDef
  rw [if_neg hb]
  exact signed_ok hL

example : idivDef (-7) 2 = .ok (-3) ∧ idivDef 7 0 = .ub := by decide

/-- The quotient of two fixed point numbers is rounded towards zero, if the dividend stays below 2^53. -/
theorem C149_quotient_partial (a b : Int) (h1 : -9007199254740992 < a) (h2 : a < 9007199254740992) (hb : b ≠ 0) :
    ∃ r, divDef a b = .ok r ∧ (r * b - a * 1024).natAbs < b.natAbs ∧ (r * b).natAbs ≤ (a * 1024).natAbs := by
  have hL : Long (a * 1024) := by unfold Long; omega
  obtain ⟨r, hr⟩ := C149_quotient_integer (a * 1024) b hL hb (by omega)
  refine ⟨r, ?_, hr.2⟩
  unfold divDef
  rw [signed_ok hL]
  exact hr.1

example : divDef 1024 3072 = .ok 341 ∧ divDef (-1024) 3072 = .ok (-341) := by decide

/-- Greater dividends, and the divisor 0, are not caught by an assertion. -/
theorem C149_quotient_negation : ∀ a b, Long a → (b = 0 ∨ a < -9007199254740992 ∨ 9007199254740992 ≤ a) → divDef a b = .ub := by
  intro a b ha h
  unfold divDef
  by_cases hL : Long (a * 1024)
  · rw [signed_ok hL]
    have hb : b = 0 := by unfold Long at hL; omega
    show idivDef (a * 1024) b = .ub
    unfold idivDef
    rw [if_pos hb]
  · rw [signed_ub hL]

/-- With `NDEBUG` there are no assertions: where a sum, a difference or a product does not fit the behaviour is undefined. -/
theorem C149_macros (a b : Int) :
    (¬ Long (a + b) → addDef a b = .ub) ∧ (¬ Long (a - b) → subDef a b = .ub) ∧ (¬ Long (a * b) → mulDef a b = .ub ∧ muliDef a b = .ub) ∧ (¬ Long (a * 1024) → itofpmDef a = .ub) := by
  refine ⟨fun h => signed_ub h, fun h => signed_ub h, fun h => ?_, fun h => signed_ub h⟩
  unfold mulDef muliDef
  rw [signed_ub h]
  exact ⟨rfl, rfl⟩

/-- How a reader takes a text with a point and three digits: the sign holds for both parts.  In thousandths. -/
def readText (p : Int × Int) : Int := if p.1 < 0 then 1000 * p.1 - p.2 else 1000 * p.1 + p.2

/-- The text has three digits after the point; it is right up to half a thousandth exactly if the number is not negative or an
integer; the half of a thousandth is rounded upwards. -/
theorem C149_text (a : Int) :
    (0 ≤ (parts a).2 ∧ (parts a).2 ≤ 999) ∧
    ((1024 * readText (parts a) - 1000 * a).natAbs ≤ 512 ↔ 0 ≤ a ∨ a % 1024 = 0) ∧
    (0 ≤ a → -512 < 1024 * readText (parts a) - 1000 * a) := by
  unfold parts readText
  simp only []
  refine ⟨by omega, ?_⟩
  split <;> omega

example : parts 1536 = (1, 500) ∧ parts 64 = (0, 63) ∧ parts 1023 = (0, 999) ∧ parts (-512) = (-1, 500) := by decide

/-- The text of minus one half reads minus one and a half. -/
theorem C149_text_negation : readText (parts (-512)) = -1500 := by decide

/-- The text fits into its 22 bytes: the number before the point has at most 16 digits. -/
theorem C149_text_fits (a : Int) (h : Long a) : -10000000000000000 < (parts a).1 ∧ (parts a).1 < 10000000000000000 := by
  unfold Long at h
  unfold parts
  simp only []
  omega

example : (parts (-9223372036854775807)).1 = -9007199254740992 := by decide

/-- A text stays as it is during the next three calls. -/
theorem C149_text_stays (r : Ring) (a : Int) (as : List Int) (h : as.length ≤ 3) :
    (calls (fpmtoa r a).2 as).ret (fpmtoa r a).1 = parts a := by
  have w : ∀ (q : Ring) (x : Int) (j : Nat), (fpmtoa q x).2.ret j = if j = (q.idx + 1) % 4 then parts x else q.ret j := fun _ _ _ => rfl
  have i : ∀ (q : Ring) (x : Int), (fpmtoa q x).2.idx = (q.idx + 1) % 4 := fun _ _ => rfl
  have f : (fpmtoa r a).1 = (r.idx + 1) % 4 := rfl
  have base : (fpmtoa r a).2.ret ((r.idx + 1) % 4) = parts a := by rw [w, if_pos rfl]
  rw [f]
  match as, h with
  | [], _ => exact base
  | [x], _ =>
    show (fpmtoa _ x).2.ret _ = _
    rw [w, i, if_neg (by omega)]; exact base
  | [x, y], _ =>
    show (fpmtoa (fpmtoa _ x).2 y).2.ret _ = _
    rw [w, w, i, i, if_neg (by omega), if_neg (by omega)]; exact base
  | [x, y, z], _ =>
    show (fpmtoa (fpmtoa (fpmtoa _ x).2 y).2 z).2.ret _ = _
    rw [w, w, w, i, i, i, if_neg (by omega), if_neg (by omega), if_neg (by omega)]; exact base
  | _ :: _ :: _ :: _ :: _, h => simp at h

private def r0 : Ring := ⟨2, fun _ => (0, 0)⟩

example : (calls (fpmtoa r0 1536).2 [1, 2, 3]).ret 3 = (1, 500) ∧ (calls (fpmtoa r0 1536).2 [1, 2, 3, 4]).ret 3 ≠ (1, 500) := by decide

end Verif.Fpm
