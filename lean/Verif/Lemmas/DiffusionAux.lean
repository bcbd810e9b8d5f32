import Verif.Lemmas.Diffusion

/-! # Helper lemmas: diffusion profiles and uptakes are fractions -/

namespace Verif.Diffusion

open Real Finset Filter

/-- Exponential factors of the sheet at normal times are small. -/
theorem sheet_q {Fo : ℝ} (h : 1 / 4 ≤ Fo) : exp (-(π ^ 2 / 4) * Fo) ≤ 0.625 := by
  have := pi_sq_lo
  have h1 : exp (-(π ^ 2 / 4) * Fo) ≤ exp (-0.6) := exp_le_exp.2 (by nlinarith)
  refine h1.trans ?_
  rw [exp_neg, inv_le_comm₀ (exp_pos _) (by norm_num)]
  have := add_one_le_exp 0.6
  norm_num at this ⊢
  linarith

/-- The normal-time sheet series, with `q = exp(-π² Fo/4)`. -/
theorem profileSheet_large {Fo x : ℝ} (h : 1 / 4 ≤ Fo) : profileSheet Fo x = 1 - 4 / π *
    (exp (-(π ^ 2 / 4) * Fo) * cos (π / 2 * x) - exp (-(π ^ 2 / 4) * Fo) ^ 9 / 3 * cos (3 * (π / 2 * x)) +
      exp (-(π ^ 2 / 4) * Fo) ^ 25 / 5 * cos (5 * (π / 2 * x)) - exp (-(π ^ 2 / 4) * Fo) ^ 49 / 7 * cos (7 * (π / 2 * x))) := by
  unfold profileSheet
  rw [if_neg (by linarith), if_neg (by linarith)]
  simp only [sum04, sgn0, sgn1, sgn2, sgn3, ← exp_nat_mul]
  norm_num
  ring_nf

theorem cos_odd_le (k : ℕ) (θ : ℝ) : |cos ((2 * k + 1 : ℕ) * θ)| ≤ (2 * k + 1 : ℕ) * |cos θ| := by
  have h := sin_nat_mul_le (2 * k + 1) (π / 2 - θ)
  rw [sin_pi_div_two_sub] at h
  refine le_trans (le_of_eq ?_) h
  have e : ((2 * k + 1 : ℕ) : ℝ) * (π / 2 - θ) = (π / 2 - (2 * k + 1 : ℕ) * θ) + k * π := by push_cast; ring
  rw [e, sin_add_nat_mul_pi, sin_pi_div_two_sub, abs_mul, abs_pow]
  simp

theorem sphere_q {Fo : ℝ} (h : 1 / 4 ≤ Fo) : exp (-π ^ 2 * Fo) ≤ 0.3 := by
  have := pi_sq_lo
  have h1 : exp (-π ^ 2 * Fo) ≤ exp (-2.4) := exp_le_exp.2 (by nlinarith)
  refine h1.trans ?_
  rw [exp_neg, inv_le_comm₀ (exp_pos _) (by norm_num)]
  have := add_one_le_exp 2.4
  norm_num at this ⊢
  linarith

theorem profileSphere_large {Fo r : ℝ} (h : 1 / 4 ≤ Fo) (hr : eps ≤ |r|) : profileSphere Fo r = 1 + 2 / (π * r) *
    (-exp (-π ^ 2 * Fo) * sin (π * r) + exp (-π ^ 2 * Fo) ^ 4 / 2 * sin (2 * (π * r)) - exp (-π ^ 2 * Fo) ^ 9 / 3 * sin (3 * (π * r))) := by
  unfold profileSphere
  rw [if_neg (not_lt.2 hr), if_neg (by linarith), if_neg (by linarith)]
  simp only [sum14, sgn1, sgn2, sgn3, ← exp_nat_mul]
  norm_num
  ring_nf
  exact Or.inl trivial

/-- The value computed at the centre of the sphere. -/
theorem profileSphere_center {Fo r : ℝ} (hr : |r| < eps) : profileSphere Fo r =
    1 - 2 * exp (-π ^ 2 * Fo) + 2 * exp (-π ^ 2 * Fo) ^ 4 - 2 * exp (-π ^ 2 * Fo) ^ 9 := by
  unfold profileSphere
  rw [if_pos hr]
  simp only [sum14, sgn1, sgn2, sgn3, ← exp_nat_mul]
  norm_num
  ring_nf

theorem uptakeSheet_large {Fo : ℝ} (h : 1 / 4 ≤ Fo) : uptakeSheet Fo =
    1 - 8 / π ^ 2 * (exp (-(π ^ 2 / 4) * Fo) + exp (-(π ^ 2 / 4) * Fo) ^ 9 / 9 + exp (-(π ^ 2 / 4) * Fo) ^ 25 / 25) := by
  unfold uptakeSheet
  rw [if_neg (by linarith), if_neg (by linarith)]
  simp only [sum03, ← exp_nat_mul]
  norm_num
  ring_nf

theorem uptakeSphere_large {Fo : ℝ} (h : 1 / 4 ≤ Fo) : uptakeSphere Fo =
    1 - 6 / π ^ 2 * (exp (-π ^ 2 * Fo) + exp (-π ^ 2 * Fo) ^ 4 / 4 + exp (-π ^ 2 * Fo) ^ 9 / 9) := by
  unfold uptakeSphere
  rw [if_neg (by linarith), if_neg (by linarith)]
  simp only [sum14, ← exp_nat_mul]
  norm_num
  ring_nf

end Verif.Diffusion
