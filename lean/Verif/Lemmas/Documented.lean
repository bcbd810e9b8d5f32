import Mathlib.Analysis.SpecialFunctions.Log.Base
import Mathlib.Analysis.SpecialFunctions.Pow.Real
import Mathlib.Analysis.Real.Sqrt

/-!
# Numerical facts for C126
-/

namespace Verif

open Real

theorem haaland_log_neg {Re er : ℝ} (hR : 2300 ≤ Re) (h0 : 0 ≤ er) (h1 : er ≤ 1) : logb 10 ((er / 3.7) ^ (1.11 : ℝ) + 6.9 / Re) < 0 := by
  have hR0 : 0 < Re := by linarith
  have a : (er / 3.7) ^ (1.11 : ℝ) ≤ er / 3.7 := by
    have e0 : 0 ≤ er / 3.7 := by positivity
    have e1 : er / 3.7 ≤ 1 := by rw [div_le_one (by norm_num)]; linarith
    simpa using rpow_le_rpow_of_exponent_ge' e0 e1 (by norm_num) (show (1 : ℝ) ≤ 1.11 by norm_num)
  have b : 6.9 / Re ≤ 6.9 / 2300 := by gcongr
  have c : er / 3.7 ≤ 1 / 3.7 := by gcongr
  have d : 0 ≤ (er / 3.7) ^ (1.11 : ℝ) := by positivity
  have e : 0 < 6.9 / Re := by positivity
  refine logb_neg (by norm_num) (by linarith) ?_
  calc (er / 3.7) ^ (1.11 : ℝ) + 6.9 / Re ≤ 1 / 3.7 + 6.9 / 2300 := by linarith
    _ < 1 := by norm_num

theorem plate_const : |0.037 * (5e5 : ℝ) ^ (4 / 5 : ℝ) - 0.664 * (5e5 : ℝ) ^ (1 / 2 : ℝ) - 871| ≤ 1 / 2 := by
  have e : ((5e5 : ℝ) ^ (4 / 5 : ℝ)) ^ 5 = 5e5 ^ 4 := by
    rw [← rpow_natCast, ← rpow_mul (by norm_num), show (4 / 5 : ℝ) * ((5 : ℕ) : ℝ) = ((4 : ℕ) : ℝ) by norm_num, rpow_natCast]
  have f : ((5e5 : ℝ) ^ (1 / 2 : ℝ)) ^ 2 = 5e5 := by
    rw [← rpow_natCast, ← rpow_mul (by norm_num)]
    norm_num
  have a1 : (36238 : ℝ) < (5e5 : ℝ) ^ (4 / 5 : ℝ) := lt_of_pow_lt_pow_left₀ 5 (by positivity) (by rw [e]; norm_num)
  have a2 : (5e5 : ℝ) ^ (4 / 5 : ℝ) < 36240 := lt_of_pow_lt_pow_left₀ 5 (by norm_num) (by rw [e]; norm_num)
  have b1 : (707 : ℝ) < (5e5 : ℝ) ^ (1 / 2 : ℝ) := lt_of_pow_lt_pow_left₀ 2 (by positivity) (by rw [f]; norm_num)
  have b2 : (5e5 : ℝ) ^ (1 / 2 : ℝ) < 707.2 := lt_of_pow_lt_pow_left₀ 2 (by norm_num) (by rw [f]; norm_num)
  generalize (5e5 : ℝ) ^ (4 / 5 : ℝ) = x at *
  generalize (5e5 : ℝ) ^ (1 / 2 : ℝ) = y at *
  rw [abs_le]
  constructor <;> linarith

end Verif
