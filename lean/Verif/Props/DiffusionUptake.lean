import Verif.Lemmas.DiffusionUptake

/-! # C90: the uptake is the volume average of the profile -/

namespace Verif.Diffusion

open Real Finset Filter intervalIntegral

/-! ## Integrals of the small-time series -/

/-- The second integral of `erfc`, in closed form. -/
noncomputable def i2erfcR (x : ℝ) : ℝ := (erfc x - 2 * x * ierfcR x) / 4

theorem i2erfcR_hasDerivAt (x : ℝ) : HasDerivAt i2erfcR (-ierfcR x) x := by
  refine (((erfc_hasDerivAt x).sub (((hasDerivAt_id x).const_mul 2).mul (ierfcR_hasDerivAt x))).div_const 4).congr_deriv ?_
  simp only [id]
  unfold ierfcR
  ring

theorem i2erfcR_tendsto : Tendsto i2erfcR atTop (nhds 0) := by
  have h1 : Tendsto (fun x : ℝ => 2 * x * ierfcR x) atTop (nhds 0) := by
    have h2 : Tendsto (fun x : ℝ => 2 * (x ^ 1 * exp (-x))) atTop (nhds (2 * 0)) := (tendsto_pow_mul_exp_neg_atTop_nhds_zero 1).const_mul 2
    rw [mul_zero] at h2
    refine squeeze_zero' ?_ ?_ h2
    · filter_upwards [eventually_ge_atTop (0 : ℝ)] with x hx
      exact mul_nonneg (by linarith) (ierfcR_pos x).le
    · filter_upwards [eventually_ge_atTop (1 : ℝ)] with x hx
      have hs := sqrt_pi_bounds
      have : ierfcR x ≤ exp (-x) := by
        refine (ierfcR_le_exp (by linarith)).trans ((div_le_self (exp_pos _).le (by norm_num at hs; linarith)).trans (exp_le_exp.2 (by nlinarith)))
      rw [pow_one, ← mul_assoc]
      exact mul_le_mul_of_nonneg_left this (by linarith)
  have := (erfc_tendsto.sub h1).div_const 4
  norm_num at this
  exact this

theorem i2erfcR_pos (x : ℝ) : 0 < i2erfcR x := by
  have hanti : StrictAnti i2erfcR := strictAnti_of_hasDerivAt_neg i2erfcR_hasDerivAt fun x => by
    have := ierfcR_pos x
    linarith
  exact (hanti.antitone.le_of_tendsto i2erfcR_tendsto (x + 1)).trans_lt (hanti (lt_add_one x))

theorem i2erfcR_le {x : ℝ} (h : 0 ≤ x) : i2erfcR x ≤ exp (-x ^ 2) / 4 := by
  have h1 := erfc_le_exp h
  have h2 := mul_nonneg h (ierfcR_pos x).le
  unfold i2erfcR
  linarith

theorem i2erfcR_zero : i2erfcR 0 = 1 / 4 := by norm_num [i2erfcR, erfc_zero]

/-- An antiderivative of the small-time sheet series. -/
noncomputable def sheetF (A x : ℝ) : ℝ :=
  A * ((ierfcR ((1 - x) / A) - ierfcR ((1 + x) / A)) - (ierfcR ((3 - x) / A) - ierfcR ((3 + x) / A)) +
    (ierfcR ((5 - x) / A) - ierfcR ((5 + x) / A)) - (ierfcR ((7 - x) / A) - ierfcR ((7 + x) / A)))

theorem sheetF_hasDerivAt {A : ℝ} (hA : A ≠ 0) (x : ℝ) : HasDerivAt (sheetF A) (sheetS A x) x := by
  have n : ∀ m : ℝ, HasDerivAt (fun x => ierfcR ((m - x) / A)) (-erfc ((m - x) / A) * (-1 / A)) x := fun m => (ierfcR_hasDerivAt _).comp x (lin_sub A m x)
  have p : ∀ m : ℝ, HasDerivAt (fun x => ierfcR ((m + x) / A)) (-erfc ((m + x) / A) * (1 / A)) x := fun m => (ierfcR_hasDerivAt _).comp x (lin_add A m x)
  refine ((((((n 1).sub (p 1)).sub ((n 3).sub (p 3))).add ((n 5).sub (p 5))).sub ((n 7).sub (p 7))).const_mul A).congr_deriv ?_
  unfold sheetS
  field_simp
  ring

theorem sheetS_integral {A : ℝ} (hA : A ≠ 0) : ∫ x in (0 : ℝ)..1, sheetS A x =
    A * (1 / √π - 2 * ierfcR (2 / A) + 2 * ierfcR (4 / A) - 2 * ierfcR (6 / A) + ierfcR (8 / A)) := by
  rw [integral_eq_sub_of_hasDerivAt (fun x _ => sheetF_hasDerivAt hA x) ((sheetS_continuous A).intervalIntegrable _ _)]
  unfold sheetF
  norm_num
  rw [ierfcR_zero]
  left
  ring

/-- An antiderivative of `r` times the small-time sphere series. -/
noncomputable def sphereF (A r : ℝ) : ℝ :=
  r * A * ((ierfcR ((1 - r) / A) + ierfcR ((1 + r) / A)) + (ierfcR ((3 - r) / A) + ierfcR ((3 + r) / A)) +
    (ierfcR ((5 - r) / A) + ierfcR ((5 + r) / A)) + (ierfcR ((7 - r) / A) + ierfcR ((7 + r) / A))) -
  A ^ 2 * ((i2erfcR ((1 - r) / A) - i2erfcR ((1 + r) / A)) + (i2erfcR ((3 - r) / A) - i2erfcR ((3 + r) / A)) +
    (i2erfcR ((5 - r) / A) - i2erfcR ((5 + r) / A)) + (i2erfcR ((7 - r) / A) - i2erfcR ((7 + r) / A)))

theorem sphereF_hasDerivAt {A : ℝ} (hA : A ≠ 0) (r : ℝ) : HasDerivAt (sphereF A) (r * sphereS A r) r := by
  have n : ∀ m : ℝ, HasDerivAt (fun x => ierfcR ((m - x) / A)) (-erfc ((m - r) / A) * (-1 / A)) r := fun m => (ierfcR_hasDerivAt _).comp r (lin_sub A m r)
  have p : ∀ m : ℝ, HasDerivAt (fun x => ierfcR ((m + x) / A)) (-erfc ((m + r) / A) * (1 / A)) r := fun m => (ierfcR_hasDerivAt _).comp r (lin_add A m r)
  have n2 : ∀ m : ℝ, HasDerivAt (fun x => i2erfcR ((m - x) / A)) (-ierfcR ((m - r) / A) * (-1 / A)) r := fun m => (i2erfcR_hasDerivAt _).comp r (lin_sub A m r)
  have p2 : ∀ m : ℝ, HasDerivAt (fun x => i2erfcR ((m + x) / A)) (-ierfcR ((m + r) / A) * (1 / A)) r := fun m => (i2erfcR_hasDerivAt _).comp r (lin_add A m r)
  have h1 := ((((n 1).add (p 1)).add ((n 3).add (p 3))).add ((n 5).add (p 5))).add ((n 7).add (p 7))
  have h2 := ((((n2 1).sub (p2 1)).add ((n2 3).sub (p2 3))).add ((n2 5).sub (p2 5))).add ((n2 7).sub (p2 7))
  have hr : HasDerivAt (fun r : ℝ => r * A) A r := by simpa using (hasDerivAt_id r).mul_const A
  refine ((hr.mul h1).sub (h2.const_mul (A ^ 2))).congr_deriv ?_
  simp only [Pi.add_apply]
  unfold sphereS
  field_simp
  ring

theorem sphereS_integral {A : ℝ} (hA : A ≠ 0) : ∫ r in (0 : ℝ)..1, r * sphereS A r =
    A * (1 / √π + 2 * ierfcR (2 / A) + 2 * ierfcR (4 / A) + 2 * ierfcR (6 / A) + ierfcR (8 / A)) - A ^ 2 * (1 / 4 - i2erfcR (8 / A)) := by
  rw [integral_eq_sub_of_hasDerivAt (fun x _ => sphereF_hasDerivAt hA x) ((continuous_id.mul (sphereS_continuous A)).intervalIntegrable _ _)]
  unfold sphereF
  norm_num
  rw [ierfcR_zero, i2erfcR_zero]
  ring

/-! ## Error bounds -/

/-- C90. The sheet uptake is the average of the sheet profile over the half thickness, to within `exp(-30)` (< 10⁻¹³). -/
theorem C90_sheet {Fo : ℝ} (hF : 0 ≤ Fo) : |(∫ x in (0 : ℝ)..1, profileSheet Fo x) - uptakeSheet Fo| ≤ exp (-30) := by
  rcases hF.eq_or_lt with rfl | hF
  · simp [profileSheet, uptakeSheet]
    exact (exp_pos _).le
  rcases lt_or_ge Fo (1 / 4) with h | h
  · have hA := A_bounds hF h
    have e : (fun x => profileSheet Fo x) = sheetS (2 * √Fo) := funext fun x => profileSheet_small hF h
    rw [e, sheetS_integral (by linarith [hA.1])]
    have hA0 : √Fo ≠ 0 := hA.1.ne'
    rw [show 2 / (2 * √Fo) = 1 / √Fo by field_simp, show 4 / (2 * √Fo) = 2 / √Fo by field_simp; norm_num, show 6 / (2 * √Fo) = 3 / √Fo by field_simp; norm_num]
    unfold uptakeSheet
    rw [if_neg hF.ne', if_pos h]
    simp only [sum14, sgn1, sgn2, sgn3]
    push_cast
    have h1 := ierfc_cut (1 / √Fo)
    have h2 := ierfc_cut (2 / √Fo)
    have h3 := ierfc_cut (3 / √Fo)
    have h8 := ierfcR_eight (x := 8 / (2 * √Fo)) (by rw [le_div_iff₀ (by linarith [hA.1])]; linarith [hA.2])
    have h80 := ierfcR_pos (8 / (2 * √Fo))
    have ht := tiny
    have hp := exp_pos (-35)
    generalize exp (-30) = t30 at *
    generalize exp (-35) = t35 at *
    generalize exp (-64) = t64 at *
    generalize exp (-900) = t900 at *
    generalize 1 / √π = p at *
    generalize ierfcR (1 / √Fo) = a1 at *
    generalize ierfcR (2 / √Fo) = a2 at *
    generalize ierfcR (3 / √Fo) = a3 at *
    generalize ierfcR (8 / (2 * √Fo)) = a8 at *
    generalize ierfc (1 / √Fo) = b1 at *
    generalize ierfc (2 / √Fo) = b2 at *
    generalize ierfc (3 / √Fo) = b3 at *
    generalize √Fo = A at *
    have e2 : 2 * A * (p - 2 * a1 + 2 * a2 - 2 * a3 + a8) - 2 * A * (p + 2 * (-1 * b1 + 1 * b2 + -1 * b3)) =
        2 * A * (-2 * (a1 - b1) + 2 * (a2 - b2) - 2 * (a3 - b3) + a8) := by ring
    rw [e2, abs_mul, abs_of_pos (by linarith [hA.1] : (0 : ℝ) < 2 * A)]
    have : |-2 * (a1 - b1) + 2 * (a2 - b2) - 2 * (a3 - b3) + a8| ≤ 100 * t35 := abs_le.2 ⟨by linarith, by linarith⟩
    have h2A : 2 * A ≤ 1 := by linarith [hA.2]
    have := mul_le_mul h2A this (abs_nonneg _) zero_le_one
    linarith [ht.2.2]
  · have hpi := pi_pos
    have hpi0 := pi_ne_zero
    have e : (fun x => profileSheet Fo x) = fun x => 1 - 4 / π *
        (exp (-(π ^ 2 / 4) * Fo) * cos (π / 2 * x) - exp (-(π ^ 2 / 4) * Fo) ^ 9 / 3 * cos (3 * (π / 2) * x) +
        exp (-(π ^ 2 / 4) * Fo) ^ 25 / 5 * cos (5 * (π / 2) * x) - exp (-(π ^ 2 / 4) * Fo) ^ 49 / 7 * cos (7 * (π / 2) * x)) := by
      funext x
      rw [profileSheet_large h, ← mul_assoc, ← mul_assoc, ← mul_assoc]
    have hc : ∀ l : ℝ, Continuous fun x => cos (l * x) := fun l => continuous_cos.comp (continuous_const.mul continuous_id)
    have hi : ∀ c l : ℝ, IntervalIntegrable (fun x => c * cos (l * x)) MeasureTheory.volume 0 1 := fun c l => ((hc l).const_mul c).intervalIntegrable _ _
    have s1 : sin (π / 2) = 1 := sin_pi_div_two
    have s3 : sin (3 * (π / 2)) = -1 := by
      rw [show 3 * (π / 2) = π / 2 + π by ring, sin_add_pi, s1]
    have s5 : sin (5 * (π / 2)) = 1 := by
      rw [show 5 * (π / 2) = π / 2 + 2 * π by ring, sin_add_two_pi, s1]
    have s7 : sin (7 * (π / 2)) = -1 := by
      rw [show 7 * (π / 2) = π / 2 + π + 2 * π by ring, sin_add_two_pi, sin_add_pi, s1]
    have key : ∫ x in (0 : ℝ)..1, profileSheet Fo x = uptakeSheet Fo - 8 / (49 * π ^ 2) * exp (-(π ^ 2 / 4) * Fo) ^ 49 := by
      rw [e, uptakeSheet_large h]
      generalize exp (-(π ^ 2 / 4) * Fo) = q
      rw [intervalIntegral.integral_sub (intervalIntegrable_const) (((((hi _ _).sub (hi _ _)).add (hi _ _)).sub (hi _ _)).const_mul _),
        intervalIntegral.integral_const_mul, intervalIntegral.integral_sub (((hi _ _).sub (hi _ _)).add (hi _ _)) (hi _ _),
        intervalIntegral.integral_add ((hi _ _).sub (hi _ _)) (hi _ _), intervalIntegral.integral_sub (hi _ _) (hi _ _)]
      simp only [intervalIntegral.integral_const_mul]
      rw [int_cos (by positivity), int_cos (by positivity), int_cos (by positivity), int_cos (by positivity), s1, s3, s5, s7]
      simp only [intervalIntegral.integral_const, sub_zero, one_smul, smul_eq_mul, mul_one]
      field_simp
      ring
    rw [key]
    have hq := sheet_q49 h
    have hq0 : 0 < exp (-(π ^ 2 / 4) * Fo) ^ 49 := by positivity
    generalize exp (-(π ^ 2 / 4) * Fo) ^ 49 = q at *
    have h8 : 8 / (49 * π ^ 2) ≤ 1 := by
      rw [div_le_one (by positivity)]
      have := pi_sq_lo
      norm_num at this; linarith
    have h80 : 0 < 8 / (49 * π ^ 2) := by positivity
    rw [show uptakeSheet Fo - 8 / (49 * π ^ 2) * q - uptakeSheet Fo = -(8 / (49 * π ^ 2) * q) by ring, abs_neg, abs_of_pos (by positivity)]
    nlinarith

example : |(∫ x in (0 : ℝ)..1, profileSheet 0.1 x) - uptakeSheet 0.1| ≤ exp (-30) := C90_sheet (by norm_num)

/-- C90. The sphere uptake is the volume average of the sphere profile (away from the centre point), to within `exp(-30)` (< 10⁻¹³). -/
theorem C90_sphere {Fo : ℝ} (hF : 0 ≤ Fo) : |(∫ r in (eps : ℝ)..1, 3 * r ^ 2 * profileSphere Fo r) - uptakeSphere Fo| ≤ exp (-30) := by
  have he := eps_cube
  have he1 : (eps : ℝ) ≤ 1 := by norm_num [eps]
  have hmem : ∀ r : ℝ, r ∈ Set.uIcc (eps : ℝ) 1 → eps ≤ r ∧ r ≤ 1 := fun r hr => by rwa [Set.uIcc_of_le he1] at hr
  have ht := tiny
  rcases hF.eq_or_lt with rfl | hF
  · have : ∫ r in (eps : ℝ)..1, 3 * r ^ 2 * profileSphere 0 r = ∫ r in (eps : ℝ)..1, (0 : ℝ) := integral_congr fun r hr => by
      have := (C63_sphere_limits r).1 ((hmem r hr).1.trans (le_abs_self r))
      simp [this]
    rw [this]
    simp [uptakeSphere]
    exact (exp_pos _).le
  rcases lt_or_ge Fo (1 / 4) with h | h
  · have hA := A_bounds hF h
    have hA2 : 0 < 2 * √Fo := by linarith [hA.1]
    have e : ∫ r in (eps : ℝ)..1, 3 * r ^ 2 * profileSphere Fo r = ∫ r in (eps : ℝ)..1, 3 * (r * sphereS (2 * √Fo) r) := integral_congr fun r hr => by
      have h1 := hmem r hr
      have : r ≠ 0 := (he.1.trans_le h1.1).ne'
      simp only [profileSphere_small hF h (h1.1.trans (le_abs_self r))]
      field_simp
    have hcont : Continuous fun r => r * sphereS (2 * √Fo) r := continuous_id.mul (sphereS_continuous _)
    have hsplit := integral_add_adjacent_intervals (hcont.intervalIntegrable (μ := MeasureTheory.volume) 0 eps) (hcont.intervalIntegrable eps 1)
    have hlo : 0 ≤ ∫ r in (0 : ℝ)..eps, r * sphereS (2 * √Fo) r := intervalIntegral.integral_nonneg he.1.le fun r hr =>
      mul_nonneg hr.1 (sphereS_nonneg hA2 hr.1)
    have hhi : ∫ r in (0 : ℝ)..eps, r * sphereS (2 * √Fo) r ≤ ∫ r in (0 : ℝ)..eps, r ^ 2 :=
      intervalIntegral.integral_mono_on he.1.le (hcont.intervalIntegrable _ _) ((continuous_pow 2).intervalIntegrable _ _) fun r hr => by
        have := sphereS_le hA2 (by linarith [hA.2]) hr.1 (hr.2.trans he1)
        nlinarith [hr.1]
    rw [integral_pow] at hhi
    norm_num at hhi
    rw [e, intervalIntegral.integral_const_mul]
    rw [sphereS_integral hA2.ne'] at hsplit
    have hA0 : √Fo ≠ 0 := hA.1.ne'
    rw [show 2 / (2 * √Fo) = 1 / √Fo by field_simp, show 4 / (2 * √Fo) = 2 / √Fo by field_simp; norm_num, show 6 / (2 * √Fo) = 3 / √Fo by field_simp; norm_num] at hsplit
    unfold uptakeSphere
    rw [if_neg hF.ne', if_pos h]
    simp only [sum14]
    push_cast
    rw [show 3 * Fo = 3 * √Fo ^ 2 by rw [sq_sqrt hF.le]]
    have h1 := ierfc_cut (1 / √Fo)
    have h2 := ierfc_cut (2 / √Fo)
    have h3 := ierfc_cut (3 / √Fo)
    have h88 : 8 ≤ 8 / (2 * √Fo) := by rw [le_div_iff₀ (by linarith [hA.1])]; linarith [hA.2]
    have h8 := ierfcR_eight h88
    have h80 := ierfcR_pos (8 / (2 * √Fo))
    have h9 : i2erfcR (8 / (2 * √Fo)) ≤ exp (-64) := by
      refine (i2erfcR_le (by linarith)).trans ?_
      have : exp (-(8 / (2 * √Fo)) ^ 2) ≤ exp (-64) := exp_le_exp.2 (by nlinarith)
      linarith [exp_pos (-(8 / (2 * √Fo)) ^ 2)]
    have h90 := i2erfcR_pos (8 / (2 * √Fo))
    have hp := exp_pos (-35)
    generalize exp (-30) = t30 at *
    generalize exp (-35) = t35 at *
    generalize exp (-64) = t64 at *
    generalize exp (-900) = t900 at *
    generalize 1 / √π = p at *
    generalize ierfcR (1 / √Fo) = a1 at *
    generalize ierfcR (2 / √Fo) = a2 at *
    generalize ierfcR (3 / √Fo) = a3 at *
    generalize ierfcR (8 / (2 * √Fo)) = a8 at *
    generalize i2erfcR (8 / (2 * √Fo)) = c8 at *
    generalize ierfc (1 / √Fo) = b1 at *
    generalize ierfc (2 / √Fo) = b2 at *
    generalize ierfc (3 / √Fo) = b3 at *
    generalize (∫ r in (0 : ℝ)..eps, r * sphereS (2 * √Fo) r) = I0 at *
    generalize (∫ r in (eps : ℝ)..1, r * sphereS (2 * √Fo) r) = I1 at *
    generalize √Fo = A at *
    have e2 : 3 * I1 - (6 * A * (p + 2 * (b1 + b2 + b3)) - 3 * A ^ 2) =
        6 * A * (2 * (a1 - b1) + 2 * (a2 - b2) + 2 * (a3 - b3) + a8) + 12 * (A ^ 2 * c8) - 3 * I0 := by
      linear_combination 3 * hsplit
    rw [e2]
    have hd0 : 0 ≤ 2 * (a1 - b1) + 2 * (a2 - b2) + 2 * (a3 - b3) + a8 := by linarith [h1.1, h2.1, h3.1]
    have hd1 : 2 * (a1 - b1) + 2 * (a2 - b2) + 2 * (a3 - b3) + a8 ≤ 7 * t35 := by linarith [h1.2, h2.2, h3.2, ht.1, ht.2.1]
    generalize 2 * (a1 - b1) + 2 * (a2 - b2) + 2 * (a3 - b3) + a8 = d at *
    have hA6 : 6 * A * d ≤ 3 * (7 * t35) := mul_le_mul (by linarith [hA.2]) hd1 hd0 (by norm_num)
    have hA60 : 0 ≤ 6 * A * d := mul_nonneg (by linarith [hA.1]) hd0
    have hAA : A ^ 2 ≤ 1 := by nlinarith [hA.1, hA.2]
    have hAc : A ^ 2 * c8 ≤ 1 * t35 := mul_le_mul hAA (h9.trans ht.2.1) h90.le zero_le_one
    have hAc0 : 0 ≤ A ^ 2 * c8 := by positivity
    rw [abs_le]
    constructor <;> linarith [ht.2.2, he.2]
  · have hpi := pi_pos
    have hpi0 := pi_ne_zero
    have e : ∫ r in (eps : ℝ)..1, 3 * r ^ 2 * profileSphere Fo r = ∫ r in (eps : ℝ)..1, (3 * r ^ 2 + 6 / π *
        (-exp (-π ^ 2 * Fo) * (r * sin (π * r)) + exp (-π ^ 2 * Fo) ^ 4 / 2 * (r * sin (2 * π * r)) - exp (-π ^ 2 * Fo) ^ 9 / 3 * (r * sin (3 * π * r)))) := integral_congr fun r hr => by
      have h1 := hmem r hr
      have : r ≠ 0 := (he.1.trans_le h1.1).ne'
      simp only [profileSphere_large h (h1.1.trans (le_abs_self r)), ← mul_assoc 2 π r, ← mul_assoc 3 π r]
      field_simp
      ring
    have hc : ∀ l : ℝ, Continuous fun x : ℝ => x * sin (l * x) := fun l => continuous_id.mul (continuous_sin.comp (continuous_const.mul continuous_id))
    have hi : ∀ c l : ℝ, IntervalIntegrable (fun x => c * (x * sin (l * x))) MeasureTheory.volume eps 1 := fun c l => ((hc l).const_mul c).intervalIntegrable _ _
    have s1 : sin π = 0 := sin_pi
    have s2 : sin (2 * π) = 0 := sin_two_pi
    have s3 : sin (3 * π) = 0 := by have := sin_nat_mul_pi 3; push_cast at this; exact this
    have c2 : cos (2 * π) = 1 := cos_two_pi
    have c3 : cos (3 * π) = -1 := by rw [show 3 * π = π + 2 * π by ring, cos_add_two_pi, cos_pi]
    -- the removed core
    have core : ∀ l : ℝ, 0 < l → l ≤ 10 → |sin (l * eps) / l ^ 2 - eps * cos (l * eps) / l| ≤ l * eps ^ 3 := by
      intro l hl hl10
      have hle : 0 < l * eps := mul_pos hl he.1
      have hle1 : l * eps ≤ 1 := by
        have : (eps : ℝ) ≤ 1 / 10 := by norm_num [eps]
        nlinarith
      have h1 := sin_le hle.le
      have h2 := sin_gt_sub_cube hle
      have h3 := cos_le_one (l * eps)
      have h4 := one_sub_sq_div_two_le_cos (x := l * eps)
      have e1 : sin (l * eps) / l ^ 2 - eps * cos (l * eps) / l = (sin (l * eps) - l * eps * cos (l * eps)) / l ^ 2 := by field_simp
      rw [e1, abs_div, abs_of_pos (show 0 < l ^ 2 by positivity), div_le_iff₀ (by positivity), show l * eps ^ 3 * l ^ 2 = (l * eps) ^ 3 by ring]
      generalize sin (l * eps) = s at *
      generalize cos (l * eps) = c at *
      generalize l * eps = x at *
      rw [abs_le]
      have h5 := mul_le_mul_of_nonneg_left h3 hle.le
      have h6 := mul_le_mul_of_nonneg_left h4 hle.le
      have hx3 : 0 < x ^ 3 := by positivity
      constructor <;> nlinarith
    have hc3 : Continuous fun r : ℝ => 3 * r ^ 2 := by fun_prop
    rw [e, intervalIntegral.integral_add (hc3.intervalIntegrable _ _) ((((hi _ _).add (hi _ _)).sub (hi _ _)).const_mul _),
      intervalIntegral.integral_const_mul, intervalIntegral.integral_const_mul, intervalIntegral.integral_sub ((hi _ _).add (hi _ _)) (hi _ _),
      intervalIntegral.integral_add (hi _ _) (hi _ _)]
    simp only [intervalIntegral.integral_const_mul]
    rw [integral_pow, int_r_sin (by positivity), int_r_sin (by positivity), int_r_sin (by positivity), s1, s2, s3, c2, c3, cos_pi, uptakeSphere_large h]
    have hpi4 := pi_lt_d2
    norm_num at hpi4
    have k1 := core π hpi (by linarith)
    have k2 := core (2 * π) (by linarith) (by linarith)
    have k3 := core (3 * π) (by linarith) (by linarith)
    have hq := sphere_q h
    have hq0 := exp_pos (-π ^ 2 * Fo)
    generalize exp (-π ^ 2 * Fo) = q at *
    generalize sin (π * eps) / π ^ 2 - eps * cos (π * eps) / π = d1 at *
    generalize sin (2 * π * eps) / (2 * π) ^ 2 - eps * cos (2 * π * eps) / (2 * π) = d2 at *
    generalize sin (3 * π * eps) / (3 * π) ^ 2 - eps * cos (3 * π * eps) / (3 * π) = d3 at *
    have hq1 : q ≤ 1 := by norm_num at hq; linarith
    have q4 : q ^ 4 ≤ 1 := pow_le_one₀ hq0.le hq1
    have q9 : q ^ 9 ≤ 1 := pow_le_one₀ hq0.le hq1
    refine (le_of_eq (congrArg abs (?_ : _ = -eps ^ 3 + 6 / π * (q * d1 - q ^ 4 / 2 * d2 + q ^ 9 / 3 * d3)))).trans ?_
    · push_cast
      field_simp
      ring
    · have e3 : (eps : ℝ) ^ 3 ≤ exp (-35) := he.2
      have e30 : (0 : ℝ) < eps ^ 3 := pow_pos he.1 3
      generalize (eps : ℝ) ^ 3 = w at *
      have hb : |q * d1 - q ^ 4 / 2 * d2 + q ^ 9 / 3 * d3| ≤ 3 * (π * w) := by
        have m : ∀ c d l : ℝ, 0 ≤ c → c ≤ 1 → 0 < l → |d| ≤ l * π * w → |c / l * d| ≤ π * w := by
          intro c d l c0 c1 hl hd
          rw [abs_mul, abs_of_nonneg (by positivity)]
          calc c / l * |d| ≤ 1 / l * (l * π * w) := mul_le_mul (div_le_div_of_nonneg_right c1 hl.le) hd (abs_nonneg _) (by positivity)
            _ = π * w := by field_simp
        have m1 := m q d1 1 hq0.le hq1 one_pos (by rwa [one_mul])
        have m2 := m (q ^ 4) d2 2 (by positivity) q4 two_pos k2
        have m3 := m (q ^ 9) d3 3 (by positivity) q9 three_pos k3
        rw [div_one] at m1
        have := abs_add_le (q * d1 - q ^ 4 / 2 * d2) (q ^ 9 / 3 * d3)
        have := abs_sub (q * d1) (q ^ 4 / 2 * d2)
        linarith
      have h6 : |6 / π * (q * d1 - q ^ 4 / 2 * d2 + q ^ 9 / 3 * d3)| ≤ 18 * w := by
        rw [abs_mul, abs_of_pos (by positivity)]
        refine (mul_le_mul_of_nonneg_left hb (by positivity)).trans_eq ?_
        field_simp
        norm_num
      have := abs_add_le (-w) (6 / π * (q * d1 - q ^ 4 / 2 * d2 + q ^ 9 / 3 * d3))
      rw [abs_neg, abs_of_pos e30] at this
      linarith [ht.2.2]

example : |(∫ r in (eps : ℝ)..1, 3 * r ^ 2 * profileSphere 0.1 r) - uptakeSphere 0.1| ≤ exp (-30) := C90_sphere (by norm_num)

end Verif.Diffusion
