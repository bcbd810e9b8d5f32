import Verif.Model.Tait
import Mathlib.Analysis.SpecialFunctions.Log.Deriv
import Mathlib.Analysis.SpecialFunctions.ExpDeriv

/-! # Helper lemmas: Tait equation -/

namespace Verif.Tait

open Real

theorem bound_ok {x lo hi : ℝ} {u : Unit} (h : bound x lo hi = .ok u) : lo ≤ x ∧ x ≤ hi := by
  unfold bound at h
  split_ifs at h with h'
  exact h'

theorem B_pos {s : Tait} (hB : 0 < s.B0) (T : ℝ) : 0 < B s T := mul_pos hB (exp_pos _)

theorem B_deriv (s : Tait) (T : ℝ) : HasDerivAt (B s) (-s.B1 * B s T) T := by
  have h : HasDerivAt (fun T : ℝ => -s.B1 * (T - 273.15)) (-s.B1) T := by
    simpa using ((hasDerivAt_id T).sub_const 273.15).const_mul (-s.B1)
  refine (h.exp.const_mul s.B0).congr_deriv ?_
  unfold B
  ring

/-- Below 70 000 times `B`, the logarithm stays under `1/C`. -/
theorem factor_pos {s : Tait} {T P : ℝ} (hB : 0 < s.B0) (hP0 : 0 ≤ P) (hP : P ≤ 1000 * B s T) : 0 < 1 - C * log (1 + P / B s T) := by
  have hb := B_pos hB T
  have h1 : 1 + P / B s T ≤ 1024 := by
    have : P / B s T ≤ 1000 := by rw [div_le_iff₀ hb]; exact hP
    linarith
  have h0 : 0 < 1 + P / B s T := by positivity
  have h2 : log (1 + P / B s T) ≤ 10 * log 2 := by
    rw [show 10 * log 2 = log (2 ^ 10) by rw [log_pow]; norm_num]
    exact log_le_log h0 (by norm_num; linarith)
  have h3 : log 2 ≤ 1 := by
    have := log_le_sub_one_of_pos (show (0 : ℝ) < 2 by norm_num)
    linarith
  unfold C
  norm_num
  linarith

end Verif.Tait
