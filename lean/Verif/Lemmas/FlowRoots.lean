import Verif.Props.Flow
import Mathlib.Topology.Order.IntermediateValue
import Mathlib.Analysis.SpecialFunctions.Pow.Continuity

/-! # Helper lemmas: the implicit equations of `vt_sphere` and `fD_Colebrook` -/

namespace Verif.Flow

open Real

theorem cdSphere_pos {R : ℝ} (h : 0 < R) : 24 / R < cdSphere R := by
  unfold cdSphere
  have h1 := rpow_pos_of_pos h (0.657 : ℝ)
  have h2 := rpow_pos_of_pos h (-1.09 : ℝ)
  have h3 : 0 < 0.413 / (1 + 16300 * R ^ (-1.09 : ℝ)) := by positivity
  have h4 : 24 / R * 1 < 24 / R * (1 + 0.173 * R ^ (0.657 : ℝ)) := mul_lt_mul_of_pos_left (by linarith) (by positivity)
  linarith

theorem sqrtC {x : ℝ} (h : 0 ≤ x) : (x : ℂ) ^ (1 / 2 : ℂ) = (√x : ℝ) := by
  rw [sqrt_eq_rpow, Complex.ofReal_cpow h]
  norm_num

end Verif.Flow
