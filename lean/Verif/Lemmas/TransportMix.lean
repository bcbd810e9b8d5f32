import Verif.Model.Transport
import Mathlib.Analysis.MeanInequalitiesPow
import Mathlib.Algebra.BigOperators.Field
import Mathlib.Analysis.Convex.SpecificFunctions.Basic

/-! # Helper lemmas: mixing rules of transport properties are means -/

namespace Verif.Transport

open Finset Real Verif.Vaporization

variable {N : ℕ}

/-- A weighted mean lies between bounds on the values of positive weight. -/
theorem wmean_bounds {a q : Fin N → ℝ} {lo hi : ℝ} (ha : ∀ i, 0 ≤ a i) (hs : 0 < ∑ i, a i) (hq : ∀ i, a i ≠ 0 → lo ≤ q i ∧ q i ≤ hi) :
    lo ≤ (∑ i, a i * q i) / ∑ i, a i ∧ (∑ i, a i * q i) / ∑ i, a i ≤ hi := by
  have h1 : ∀ i, a i * lo ≤ a i * q i ∧ a i * q i ≤ a i * hi := fun i => by
    rcases eq_or_ne (a i) 0 with h | h
    · simp [h]
    · exact ⟨mul_le_mul_of_nonneg_left (hq i h).1 (ha i), mul_le_mul_of_nonneg_left (hq i h).2 (ha i)⟩
  rw [le_div_iff₀ hs, div_le_iff₀ hs, mul_comm lo, mul_comm hi, sum_mul, sum_mul]
  exact ⟨sum_le_sum fun i _ => (h1 i).1, sum_le_sum fun i _ => (h1 i).2⟩

theorem odiv_pos_local {a b : ℝ} (h : 0 < b) : odiv a b = some (a / b) := if_neg h.ne'

theorem sqrtMean_eq {y q M : Fin N → ℝ} (hs : 0 < ∑ i, y i * √(M i)) :
    sqrtMean y q M = some ((∑ i, y i * √(M i) * q i) / ∑ i, y i * √(M i)) := by
  unfold sqrtMean
  dsimp only
  rw [if_neg hs.ne', sum_div]
  congr 2
  funext i; ring

theorem weights_pos {y M : Fin N → ℝ} (hy : ∀ i, 0 ≤ y i) (hM : ∀ i, 0 < M i) {k : Fin N} (hk : 0 < y k) : 0 < ∑ i, y i * √(M i) :=
  sum_pos' (fun i _ => mul_nonneg (hy i) (sqrt_nonneg _)) ⟨k, mem_univ _, mul_pos hk (sqrt_pos.2 (hM k))⟩

end Verif.Transport
