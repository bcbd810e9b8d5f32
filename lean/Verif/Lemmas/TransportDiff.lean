import Verif.Model.Transport
import Mathlib.Analysis.SpecialFunctions.Log.Deriv

/-! # Helper lemmas: estimates of diffusion coefficients -/

namespace Verif.Transport

open Real

theorem omegaD_pos {t : ℝ} (h : 0 < t) : 0 < omegaD t := by unfold omegaD; positivity

theorem omegaD_anti {s t : ℝ} (hs : 0 < s) (h : s < t) : omegaD t < omegaD s := by
  have a : ∀ c : ℝ, 0 < c → ∀ d : ℝ, 0 < d → c / exp (d * t) < c / exp (d * s) := fun c hc d hd =>
    div_lt_div_of_pos_left hc (exp_pos _) (exp_lt_exp.2 (mul_lt_mul_of_pos_left h hd))
  have b : 1.06036 / t ^ (0.15610 : ℝ) < 1.06036 / s ^ (0.15610 : ℝ) :=
    div_lt_div_of_pos_left (by norm_num) (rpow_pos_of_pos hs _) (rpow_lt_rpow hs.le h (by norm_num))
  unfold omegaD
  have h1 := a 0.19300 (by norm_num) 0.47635 (by norm_num)
  have h2 := a 1.03587 (by norm_num) 1.52996 (by norm_num)
  have h3 := a 1.76474 (by norm_num) 3.89411 (by norm_num)
  linarith

end Verif.Transport
