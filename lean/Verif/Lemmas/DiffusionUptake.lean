import Verif.Props.Diffusion
import Mathlib.MeasureTheory.Integral.IntervalIntegral.FundThmCalculus
import Mathlib.Analysis.SpecialFunctions.Integrals.Basic

/-! # Helper lemmas: the uptake is the volume average of the profile -/

namespace Verif.Diffusion

open Real Finset Filter intervalIntegral

theorem ierfcR_zero : ierfcR 0 = 1 / √π := by norm_num [ierfcR]

theorem lin_sub (A m x : ℝ) : HasDerivAt (fun x : ℝ => (m - x) / A) (-1 / A) x := ((hasDerivAt_id x).const_sub m).div_const A
theorem lin_add (A m x : ℝ) : HasDerivAt (fun x : ℝ => (m + x) / A) (1 / A) x := ((hasDerivAt_id x).const_add m).div_const A

theorem sheetS_continuous (A : ℝ) : Continuous (sheetS A) := continuous_iff_continuousAt.2 fun x => (sheetS_hasDerivAt A x).continuousAt

theorem sphereS_continuous (A : ℝ) : Continuous (sphereS A) := continuous_iff_continuousAt.2 fun x => (sphereS_hasDerivAt A x).continuousAt

/-- Cutting `ierfc` to zero above 30 changes it by a negligible amount. -/
theorem ierfc_cut (x : ℝ) : 0 ≤ ierfcR x - ierfc x ∧ ierfcR x - ierfc x ≤ exp (-900) := by
  refine ⟨by have := ierfc_le x; linarith, ?_⟩
  unfold ierfc
  split_ifs with h
  · have hs := sqrt_pi_bounds
    rw [sub_zero]
    refine (ierfcR_le_exp (by linarith)).trans ((div_le_self (exp_pos _).le (by norm_num at hs; linarith)).trans (exp_le_exp.2 (by nlinarith)))
  · simp only [ierfcR, sub_self]
    exact (exp_pos _).le

theorem tiny : exp (-900) ≤ exp (-35) ∧ exp (-64) ≤ exp (-35) ∧ 100 * exp (-35) ≤ exp (-30) := by
  refine ⟨exp_le_exp.2 (by norm_num), exp_le_exp.2 (by norm_num), ?_⟩
  have h : exp (-30) = exp (-35) * exp 5 := by rw [← exp_add]; norm_num
  have h5 : 100 ≤ exp 5 := by
    have : exp 5 = exp 1 ^ 5 := by rw [← exp_nat_mul]; norm_num
    rw [this]
    have h1 := exp_one_gt_d9
    have := pow_lt_pow_left₀ h1 (by norm_num) (n := 5) (by norm_num)
    norm_num at this ⊢
    linarith
  rw [h]
  nlinarith [exp_pos (-35)]

theorem ierfcR_eight {x : ℝ} (h : 8 ≤ x) : ierfcR x ≤ exp (-64) := by
  have hs := sqrt_pi_bounds
  refine (ierfcR_le_exp (by linarith)).trans ((div_le_self (exp_pos _).le (by norm_num at hs; linarith)).trans (exp_le_exp.2 (by nlinarith)))

/-- `∫ cos(l x)` over the half thickness. -/
theorem int_cos {l : ℝ} (hl : l ≠ 0) : ∫ x in (0 : ℝ)..1, cos (l * x) = sin l / l := by
  have h : ∀ x : ℝ, HasDerivAt (fun x => sin (l * x) / l) (cos (l * x)) x := fun x => by
    have hx : HasDerivAt (fun y => l * y) l x := by simpa using (hasDerivAt_id x).const_mul l
    refine (((hasDerivAt_sin _).comp x hx).div_const l).congr_deriv ?_
    field_simp
  rw [integral_eq_sub_of_hasDerivAt (fun x _ => h x) ((continuous_cos.comp (continuous_const.mul continuous_id)).intervalIntegrable _ _)]
  simp

theorem int_r_sin {l : ℝ} (hl : l ≠ 0) (a : ℝ) : ∫ x in a..1, x * sin (l * x) = (sin l / l ^ 2 - cos l / l) - (sin (l * a) / l ^ 2 - a * cos (l * a) / l) := by
  have h : ∀ x : ℝ, HasDerivAt (fun x => sin (l * x) / l ^ 2 - x * cos (l * x) / l) (x * sin (l * x)) x := fun x => by
    have hx : HasDerivAt (fun y => l * y) l x := by simpa using (hasDerivAt_id x).const_mul l
    refine ((((hasDerivAt_sin _).comp x hx).div_const (l ^ 2)).sub (((hasDerivAt_id x).mul ((hasDerivAt_cos _).comp x hx)).div_const l)).congr_deriv ?_
    simp only [Function.comp, id]
    field_simp
    ring
  rw [integral_eq_sub_of_hasDerivAt (fun x _ => h x) ((continuous_id.mul (continuous_sin.comp (continuous_const.mul continuous_id))).intervalIntegrable _ _)]
  simp

theorem sheet_q49 {Fo : ℝ} (h : 1 / 4 ≤ Fo) : exp (-(π ^ 2 / 4) * Fo) ^ 49 ≤ exp (-30) := by
  rw [← exp_nat_mul]
  have := pi_sq_lo
  norm_num at this
  exact exp_le_exp.2 (by push_cast; nlinarith)

theorem eps_cube : (0 : ℝ) < eps ∧ (eps : ℝ) ^ 3 ≤ exp (-35) := by
  refine ⟨by norm_num [eps], ?_⟩
  have h : exp (-35) = (exp 1 ^ 35)⁻¹ := by rw [exp_neg, ← exp_nat_mul]; norm_num
  rw [h, le_inv_comm₀ (by norm_num [eps]) (by positivity)]
  have h1 := exp_one_lt_d9
  have : exp 1 ^ 35 ≤ 4 ^ 35 := pow_le_pow_left₀ (exp_pos 1).le (by norm_num at h1 ⊢; linarith) 35
  refine this.trans ?_
  norm_num [eps]

end Verif.Diffusion
