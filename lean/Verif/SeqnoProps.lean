import Verif.SeqnoModel

/-!
# C03: the wrap-around comparison is a strict order on every half window

Specification: the circular distance from `b` up to `a` is `(a - b) mod 65536`.
-/

namespace Verif.Seqno

/-- circular distance travelled upwards from `b` to `a` -/
def ahead (a b : Nat) : Nat := (a + 65536 - b) % 65536

/-- "newer" means: ahead by 1 .. 32767, or by exactly 32768 when the numbers did not wrap downwards -/
theorem C03_greater_iff (a b : Nat) (ha : a < 65536) (hb : b < 65536) :
    greater a b = true ↔ (0 < ahead a b ∧ ahead a b < 32768) ∨ (ahead a b = 32768 ∧ a < b) := by
  unfold greater ahead
  simp only [Bool.or_eq_true, Bool.and_eq_true, decide_eq_true_eq]
  omega

theorem C03_irreflexive (a : Nat) : greater a a = false := by
  unfold greater; simp

/-- never both newer -/
theorem C03_asymmetric (a b : Nat) (ha : a < 65536) (hb : b < 65536) (h : greater a b = true) :
    greater b a = false := by
  rw [← Bool.not_eq_true, C03_greater_iff b a hb ha]
  rw [C03_greater_iff a b ha hb] at h
  unfold ahead at *
  omega

example : greater 3 65530 = true ∧ greater 65530 3 = false := by decide

/-- distinct numbers are always ordered one way or the other (even at distance 32768) -/
theorem C03_total (a b : Nat) (ha : a < 65536) (hb : b < 65536) (hne : a ≠ b) :
    greater a b = true ∨ greater b a = true := by
  rw [C03_greater_iff a b ha hb, C03_greater_iff b a hb ha]
  unfold ahead
  omega

/-- transitivity on any set of numbers spanning less than half the number space -/
theorem C03_transitive (base a b c : Nat) (_h0 : base < 65536) (ha : a < 65536) (hb : b < 65536) (hc : c < 65536)
    (wa : ahead a base < 32768) (wb : ahead b base < 32768) (wc : ahead c base < 32768)
    (h1 : greater a b = true) (h2 : greater b c = true) : greater a c = true := by
  rw [C03_greater_iff _ _ ha hb] at h1
  rw [C03_greater_iff _ _ hb hc] at h2
  rw [C03_greater_iff _ _ ha hc]
  unfold ahead at *
  omega

example : ahead 65530 65000 < 32768 ∧ ahead 2 65000 < 32768 ∧ ahead 900 65000 < 32768 ∧
    greater 900 2 = true ∧ greater 2 65530 = true ∧ greater 900 65530 = true := by decide

/-- without the half-window restriction transitivity is false -/
theorem C03_not_globally_transitive :
    ∃ a b c, a < 65536 ∧ b < 65536 ∧ c < 65536 ∧ greater a b = true ∧ greater b c = true ∧ greater a c = false :=
  ⟨0, 40000, 20000, by decide, by decide, by decide, by decide, by decide, by decide⟩

/-- the signed difference used by the duplicate detector agrees with the comparison except at
distance 32768, where it treats the numerically larger number as newer -/
theorem C03_diff_spec (a b : Nat) (ha : a < 65536) (hb : b < 65536) :
    (0 < diff a b ↔ (0 < ahead a b ∧ ahead a b < 32768) ∨ (ahead a b = 32768 ∧ b < a)) ∧
    diff a b = -diff b a ∧ -32768 ≤ diff a b ∧ diff a b ≤ 32768 ∧
    ∃ k : Int, diff a b = (a : Int) - b + 65536 * k := by
  unfold diff ahead
  refine ⟨?_, ?_, ?_, ?_, ?_⟩
  · simp only; split <;> (try split) <;> omega
  · simp only; split <;> split <;> (try split) <;> (try split) <;> omega
  · simp only; split <;> (try split) <;> omega
  · simp only; split <;> (try split) <;> omega
  · simp only; split
    · exact ⟨-1, by omega⟩
    · split
      · exact ⟨1, by omega⟩
      · exact ⟨0, by omega⟩

end Verif.Seqno
