import Verif.Model.Dist
import Verif.Lemmas.Convert
import Mathlib.Probability.Distributions.Gaussian.Real
import Mathlib.MeasureTheory.Function.JacobianOneDim
import Mathlib.MeasureTheory.Integral.IntegralEqImproper
import Mathlib.Analysis.SpecialFunctions.Gaussian.GaussianIntegral
import Mathlib.MeasureTheory.Integral.IntervalIntegral.FundThmCalculus
import Mathlib.Tactic.FieldSimp

/-! # Helper lemmas: continuous distributions -/

namespace Verif.Dist

open Real MeasureTheory Set Filter

/-! ### erf -/

theorem erf_hasDerivAt (x : ℝ) : HasDerivAt erf (2 / √π * exp (-x ^ 2)) x := by
  unfold erf
  have hc : Continuous fun t : ℝ => exp (-t ^ 2) := by fun_prop
  have := (hc.integral_hasStrictDerivAt 0 x).hasDerivAt
  exact this.const_mul _

theorem erf_tendsto_atTop : Tendsto erf atTop (nhds 1) := by
  have h := integral_gaussian_Ioi 1
  have hi : IntegrableOn (fun t : ℝ => exp (-t ^ 2)) (Ioi 0) := by
    have := (integrable_exp_neg_mul_sq (b := 1) one_pos).integrableOn (s := Ioi 0)
    simpa using this
  have ht := intervalIntegral_tendsto_integral_Ioi 0 hi tendsto_id
  have := ht.const_mul (2 / √π)
  have e : (2 / √π) * ∫ t in Ioi (0 : ℝ), exp (-t ^ 2) = 1 := by
    have : ∫ t in Ioi (0 : ℝ), exp (-t ^ 2) = √π / 2 := by simpa using h
    rw [this]
    have : √π ≠ 0 := by positivity
    field_simp
  rw [e] at this
  exact this

theorem erf_neg (x : ℝ) : erf (-x) = -erf x := by
  unfold erf
  have : ∫ t in (0 : ℝ)..(-x), exp (-t ^ 2) = -∫ t in (0 : ℝ)..x, exp (-t ^ 2) := by
    have h := intervalIntegral.integral_comp_neg (a := 0) (b := x) (fun t : ℝ => exp (-t ^ 2))
    simp only [neg_sq, neg_zero] at h
    rw [h, intervalIntegral.integral_symm]
  rw [this]; ring

theorem erf_tendsto_atBot : Tendsto erf atBot (nhds (-1)) := by
  have h := (erf_tendsto_atTop.comp tendsto_neg_atBot_atTop).neg
  refine h.congr fun x => ?_
  simp only [Function.comp, Pi.neg_apply, erf_neg, neg_neg]

theorem gaussPdf_eq (m s t : ℝ) (hs : 0 < s) :
    ProbabilityTheory.gaussianPDFReal m (Real.toNNReal (s ^ 2)) t =
      exp (-((t - m) ^ 2) / (2 * s ^ 2)) / (s * √(2 * π)) := by
  unfold ProbabilityTheory.gaussianPDFReal
  rw [Real.coe_toNNReal _ (sq_nonneg s), Real.sqrt_mul (by positivity) (s ^ 2), Real.sqrt_sq hs.le]
  field_simp

/-- The Gaussian mass below `c`. -/
theorem gauss_Iic (m s c : ℝ) (hs : 0 < s) :
    ∫ t in Iic c, exp (-((t - m) ^ 2) / (2 * s ^ 2)) / (s * √(2 * π)) = (1 + erf ((c - m) / (s * √2))) / 2 := by
  have h2 : (0 : ℝ) < √2 := by positivity
  have hd : ∀ t ∈ Iic c, HasDerivAt (fun t => (1 + erf ((t - m) / (s * √2))) / 2)
      (exp (-((t - m) ^ 2) / (2 * s ^ 2)) / (s * √(2 * π))) t := by
    intro t _
    have h1 : HasDerivAt (fun t : ℝ => (t - m) / (s * √2)) (1 / (s * √2)) t :=
      ((hasDerivAt_id t).sub_const m).div_const _
    have h3 := ((erf_hasDerivAt ((t - m) / (s * √2))).comp t h1).const_add 1 |>.div_const 2
    refine hasDerivAt_of_eq h3 (fun _ => rfl) ?_
    have e1 : ((t - m) / (s * √2)) ^ 2 = (t - m) ^ 2 / (2 * s ^ 2) := by
      rw [div_pow, mul_pow, Real.sq_sqrt (by norm_num)]; ring
    rw [e1, Real.sqrt_mul (by norm_num), ← neg_div]
    have : √π ≠ 0 := by positivity
    field_simp
  have hpos : ∀ t ∈ Iic c, 0 ≤ exp (-((t - m) ^ 2) / (2 * s ^ 2)) / (s * √(2 * π)) := fun t _ => by positivity
  have ht : Tendsto (fun t => (1 + erf ((t - m) / (s * √2))) / 2) atBot (nhds 0) := by
    have h1 : Tendsto (fun t : ℝ => (t - m) / (s * √2)) atBot atBot :=
      (tendsto_atBot_add_const_right _ (-m) tendsto_id).atBot_div_const (by positivity)
    have h3 := ((erf_tendsto_atBot.comp h1).const_add 1).div_const 2
    simpa using h3
  have hint : IntegrableOn (fun t => exp (-((t - m) ^ 2) / (2 * s ^ 2)) / (s * √(2 * π))) (Iic c) := by
    have h := (ProbabilityTheory.integrable_gaussianPDFReal m (Real.toNNReal (s ^ 2))).integrableOn (s := Iic c)
    exact h.congr_fun (fun t _ => gaussPdf_eq m s t hs) measurableSet_Iic
  have := integral_Iic_of_hasDerivAt_of_tendsto' hd hint ht
  rw [this, sub_zero]

theorem gauss_univ (m s : ℝ) (hs : 0 < s) :
    ∫ t, exp (-((t - m) ^ 2) / (2 * s ^ 2)) / (s * √(2 * π)) = 1 := by
  have hv : Real.toNNReal (s ^ 2) ≠ 0 := by
    rw [ne_eq, Real.toNNReal_eq_zero, not_le]; positivity
  rw [← ProbabilityTheory.integral_gaussianPDFReal_eq_one m hv]
  exact integral_congr_ae (Eventually.of_forall fun t => (gaussPdf_eq m s t hs).symm)

/-- Substitution `x = exp t` in the moments of the log-normal law. -/
theorem ln_subst (mu s : ℝ) (hs : 0 < s) (n : ℕ) (S : Set ℝ) (hS : MeasurableSet S) :
    ∫ x in exp '' S, x ^ n * lnPdf mu s x =
      lnMoment mu s n * ∫ t in S, exp (-((t - (mu + n * s ^ 2)) ^ 2) / (2 * s ^ 2)) / (s * √(2 * π)) := by
  rw [integral_image_eq_integral_abs_deriv_smul hS (fun x _ => (Real.hasDerivAt_exp x).hasDerivWithinAt)
    (Real.exp_injective.injOn)]
  rw [← integral_const_mul]
  refine setIntegral_congr_fun hS fun t _ => ?_
  simp only [lnPdf, lnMoment, smul_eq_mul, log_exp, abs_of_pos (exp_pos t)]
  have e : exp t ^ n * exp (-((t - mu) ^ 2) / (2 * s ^ 2)) =
      exp (n * mu + 1 / 2 * (n : ℝ) ^ 2 * s ^ 2) * exp (-((t - (mu + n * s ^ 2)) ^ 2) / (2 * s ^ 2)) := by
    rw [← exp_nat_mul, ← exp_add, ← exp_add]
    congr 1
    field_simp
    ring
  have h1 : exp t ≠ 0 := (exp_pos t).ne'
  have h2 : √(2 * π) ≠ 0 := by positivity
  calc exp t * (exp t ^ n * (exp (-((t - mu) ^ 2) / (2 * s ^ 2)) / (exp t * s * √(2 * π))))
      = (exp t ^ n * exp (-((t - mu) ^ 2) / (2 * s ^ 2))) / (s * √(2 * π)) := by field_simp
    _ = _ := by rw [e]; ring

theorem exp_image_univ : exp '' univ = Ioi 0 := by
  rw [image_univ, Real.range_exp]

theorem exp_image_Iic (x : ℝ) (hx : 0 < x) : exp '' Iic (log x) = Ioc 0 x := by
  ext y
  simp only [mem_image, mem_Iic, mem_Ioc]
  constructor
  · rintro ⟨t, ht, rfl⟩
    exact ⟨exp_pos t, by rw [← exp_log hx]; exact exp_le_exp.mpr ht⟩
  · rintro ⟨h0, h1⟩
    exact ⟨log y, log_le_log h0 h1, exp_log h0⟩

/-! ### Schulz-Zimm -/

theorem sz_subst (k theta : ℝ) (ht : 0 < theta) (hk : 0 < k) (n : ℕ) (S : Set ℝ) (hS : MeasurableSet S) (hS0 : S ⊆ Ioi 0) :
    ∫ x in (fun u => theta * u) '' S, x ^ n * szPdf k theta x =
      theta ^ n / Gamma k * ∫ u in S, u ^ (k + n - 1) * exp (-u) := by
  rw [integral_image_eq_integral_abs_deriv_smul (f' := fun _ => theta) hS
    (fun x _ => (by simpa using (hasDerivAt_id x).const_mul theta : HasDerivAt (fun u => theta * u) theta x).hasDerivWithinAt)
    (fun x _ y _ h => by simpa [ht.ne'] using h)]
  rw [← integral_const_mul]
  refine setIntegral_congr_fun hS fun u hu => ?_
  have hu0 : 0 < u := hS0 hu
  simp only [szPdf, smul_eq_mul, abs_of_pos ht]
  rw [show -(theta * u) / theta = -u by field_simp, mul_rpow ht.le hu0.le, mul_pow]
  have e1 : theta * theta ^ (k - 1) = theta ^ k := by
    rw [← rpow_one_add' ht.le (by linarith)]; congr 1; ring
  have e2 : u ^ n * u ^ (k - 1) = u ^ (k + n - 1) := by
    rw [← rpow_natCast, ← rpow_add hu0]; congr 1; ring
  have h1 : theta ^ k ≠ 0 := (rpow_pos_of_pos ht k).ne'
  have h2 : Gamma k ≠ 0 := (Gamma_pos_of_pos hk).ne'
  rw [← e2, ← e1]
  have h3 : theta ^ (k - 1) ≠ 0 := (rpow_pos_of_pos ht _).ne'
  field_simp

theorem scale_image_Ioc (theta x : ℝ) (ht : 0 < theta) : (fun u => theta * u) '' Ioc 0 (x / theta) = Ioc 0 x := by
  ext y
  simp only [mem_image, mem_Ioc]
  constructor
  · rintro ⟨u, ⟨h0, h1⟩, rfl⟩
    rw [le_div_iff₀ ht] at h1
    exact ⟨by positivity, by linarith⟩
  · rintro ⟨h0, h1⟩
    exact ⟨y / theta, ⟨by positivity, by gcongr⟩, by field_simp⟩

theorem scale_image_Ioi (theta : ℝ) (ht : 0 < theta) : (fun u => theta * u) '' Ioi 0 = Ioi 0 := by
  ext y
  simp only [mem_image, mem_Ioi]
  constructor
  · rintro ⟨u, h0, rfl⟩; positivity
  · intro h0; exact ⟨y / theta, by positivity, by field_simp⟩

theorem gammainc_add_gammaincc (a x : ℝ) (ha : 0 < a) (hx : 0 ≤ x) : gammainc a x + gammaincc a x = 1 := by
  unfold gammainc gammaincc
  have hi : IntegrableOn (fun t : ℝ => t ^ (a - 1) * exp (-t)) (Ioi 0) := by
    have := Real.GammaIntegral_convergent ha
    refine this.congr_fun (fun t _ => by ring) measurableSet_Ioi
  have h := setIntegral_union (μ := volume) (f := fun t : ℝ => t ^ (a - 1) * exp (-t)) (Set.Ioc_disjoint_Ioi_same (a := 0) (b := x))
    measurableSet_Ioi (hi.mono_set Ioc_subset_Ioi_self) (hi.mono_set (Ioi_subset_Ioi hx))
  rw [Ioc_union_Ioi_eq_Ioi hx] at h
  have hG : Gamma a = ∫ t in Ioi (0 : ℝ), t ^ (a - 1) * exp (-t) := by
    rw [Real.Gamma_eq_integral ha]
    exact setIntegral_congr_fun measurableSet_Ioi fun t _ => by ring
  rw [← mul_add, ← h, ← hG]
  have := (Gamma_pos_of_pos ha).ne'
  field_simp

end Verif.Dist
