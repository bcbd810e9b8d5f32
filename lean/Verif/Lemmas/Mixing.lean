import Verif.Model.Mixing
import Mathlib.Algebra.Order.BigOperators.Group.Finset
import Mathlib.Algebra.BigOperators.Ring.Finset
import Mathlib.Tactic

/-! Helper lemmas on the mixing rules. -/

namespace Verif.Mixing

open Finset

variable {N : ℕ}

/-- A symmetric double sum is the diagonal plus twice the upper triangle. -/
theorem sum_sum_symm (f : Fin N → Fin N → ℝ) (hf : ∀ i j, f i j = f j i) :
    ∑ i, ∑ j, f i j = ∑ i, (f i i + ∑ j ∈ univ.filter (fun j => i < j), 2 * f i j) := by
  have h1 : ∀ i, ∑ j, f i j = f i i + (∑ j ∈ univ.filter (fun j => i < j), f i j) + ∑ j ∈ univ.filter (fun j => j < i), f i j := by
    intro i
    have : ∀ j, f i j = (if j = i then f i i else 0) + (if i < j then f i j else 0) + (if j < i then f i j else 0) := by
      intro j
      rcases lt_trichotomy i j with h | h | h
      · simp [h, h.ne', not_lt.2 h.le]
      · subst h; simp
      · simp [h, h.ne, not_lt.2 h.le]
    rw [Finset.sum_congr rfl fun j _ => this j, sum_add_distrib, sum_add_distrib, sum_filter, sum_filter]
    simp
  have h2 : ∑ i, ∑ j ∈ univ.filter (fun j => j < i), f i j = ∑ i, ∑ j ∈ univ.filter (fun j => i < j), f i j := by
    simp_rw [sum_filter]
    rw [sum_comm]
    exact sum_congr rfl fun i _ => sum_congr rfl fun j _ => by rw [hf j i]
  rw [sum_congr rfl fun i _ => h1 i, sum_add_distrib, sum_add_distrib, h2, sum_add_distrib]
  simp_rw [← mul_sum]
  ring

theorem geometric_none_eq (y Q : Fin N → ℝ) (hQ : ∀ i, 0 ≤ Q i) :
    geometric y Q none = ∑ i, ∑ j, y i * y j * √(Q i * Q j) := by
  rw [geometric, sq, sum_mul_sum]
  refine sum_congr rfl fun i _ => sum_congr rfl fun j _ => ?_
  rw [Real.sqrt_mul (hQ i)]; ring

theorem geometric_some_eq (y Q : Fin N → ℝ) (hQ : ∀ i, 0 ≤ Q i) (k : Fin N → Fin N → ℝ) (hk : ∀ i j, k i j = k j i)
    (hd : ∀ i, k i i = 0) : geometric y Q (some k) = ∑ i, ∑ j, y i * y j * √(Q i * Q j) * (1 - k i j) := by
  rw [sum_sum_symm]
  · rw [geometric]
    refine sum_congr rfl fun i _ => ?_
    rw [hd, Real.sqrt_mul_self (hQ i)]
    congr 1
    · ring
    · exact sum_congr rfl fun j _ => by ring
  · intro i j
    rw [hk i j, mul_comm (Q i)]; ring

end Verif.Mixing
