import Verif.Lemmas.DiffusionAux

/-! # C63: diffusion profiles and uptakes are fractions -/

namespace Verif.Diffusion

open Real Finset Filter

/-! ## Semi-infinite medium -/

/-- C63. The profile lies in (0, 1], is 1 at the surface, decreases with depth and increases with time. -/
theorem C63_semiinf_range {t x D : ℝ} (ht : 0 < t) (hD : 0 < D) (hx : 0 ≤ x) :
    ∃ v, profileSemiinf t x D = some v ∧ 0 < v ∧ v ≤ 1 ∧ (v = 1 ↔ x = 0) := by
  have hp : D * t ≠ 0 := by positivity
  have hs : 0 < √(D * t) := sqrt_pos.2 (by positivity)
  refine ⟨_, if_neg hp, erfc_pos _, erfc_le_one (by positivity), ?_⟩
  rw [← erfc_zero, erfc_strictAnti.injective.eq_iff, div_eq_zero_iff]
  constructor
  · rintro (h | h)
    · exact h
    · linarith
  · exact Or.inl

example : ∃ v, profileSemiinf 10 (1 / 2) 3 = some v ∧ 0 < v ∧ v ≤ 1 ∧ (v = 1 ↔ (1 / 2 : ℝ) = 0) :=
  C63_semiinf_range (by norm_num) (by norm_num) (by norm_num)

/-- C63. Deeper points are further from the surface value, later times closer to it. -/
theorem C63_semiinf_monotone {t t' x x' D : ℝ} (ht : 0 < t) (htt : t ≤ t') (hD : 0 < D) (hx : 0 ≤ x) (hxx : x ≤ x') :
    ∃ v v', profileSemiinf t x' D = some v ∧ profileSemiinf t' x D = some v' ∧ v ≤ v' ∧ ((x < x' ∨ (t < t' ∧ 0 < x)) → v < v') := by
  have hs : 0 < √(D * t) := sqrt_pos.2 (by positivity)
  have ht' : 0 < t' := ht.trans_le htt
  have hs' : 0 < √(D * t') := sqrt_pos.2 (by positivity)
  have hle : √(D * t) ≤ √(D * t') := sqrt_le_sqrt (by gcongr)
  refine ⟨_, _, if_neg (by positivity), if_neg (by positivity), erfc_strictAnti.antitone ?_, fun h => erfc_strictAnti ?_⟩
  · exact div_le_div₀ (hx.trans hxx) hxx (by positivity) (by linarith)
  · rcases h with h | ⟨h, h'⟩
    · exact (div_le_div₀ hx le_rfl (by positivity) (by linarith)).trans_lt (div_lt_div_of_pos_right h (by positivity))
    · have : √(D * t) < √(D * t') := sqrt_lt_sqrt (by positivity) (by gcongr)
      exact (div_lt_div_of_pos_left h' (by positivity) (by linarith)).trans_le (div_le_div_of_nonneg_right hxx (by positivity))

example : ∃ v v', profileSemiinf 1 2 1 = some v ∧ profileSemiinf 2 1 1 = some v' ∧ v ≤ v' ∧ (((1 : ℝ) < 2 ∨ ((1 : ℝ) < 2 ∧ (0 : ℝ) < 1)) → v < v') :=
  C63_semiinf_monotone (by norm_num) (by norm_num) (by norm_num) (by norm_num) (by norm_num)

/-- C63. At time zero the medium is empty below the surface; at the surface itself the result is NaN. -/
theorem C63_semiinf_start (x D : ℝ) :
    (0 < x → profileSemiinf 0 x D = some 0) ∧ profileSemiinf 0 0 D = none := by
  unfold profileSemiinf
  simp only [mul_zero, if_true]
  refine ⟨fun h => ?_, trivial⟩
  rw [if_neg h.ne', if_pos h]

/-! ## Plane sheet -/

/-- C63. Sheet profile: between 0 and 1 for every Fourier number and position. -/
theorem C63_sheet_range {Fo x : ℝ} (hF : 0 ≤ Fo) (h0 : 0 ≤ x) (h1 : x ≤ 1) : 0 ≤ profileSheet Fo x ∧ profileSheet Fo x ≤ 1 := by
  rcases hF.eq_or_lt with rfl | hF
  · norm_num [profileSheet]
  rcases lt_or_ge Fo (1 / 4) with h | h
  · rw [profileSheet_small hF h]
    have hA := A_bounds hF h
    exact ⟨sheetS_nonneg (by linarith [hA.1]) x, sheetS_le (by linarith [hA.1]) (by linarith [hA.2]) h0 h1⟩
  · rw [profileSheet_large h]
    have hq := sheet_q h
    have hq0 := exp_pos (-(π ^ 2 / 4) * Fo)
    have hc : 0 ≤ cos (π / 2 * x) := cos_nonneg_of_mem_Icc ⟨by have := pi_pos; nlinarith, by have := pi_pos; nlinarith⟩
    have hc1 := cos_le_one (π / 2 * x)
    have c3 := cos_odd_le 1 (π / 2 * x)
    have c5 := cos_odd_le 2 (π / 2 * x)
    have c7 := cos_odd_le 3 (π / 2 * x)
    rw [abs_of_nonneg hc, abs_le] at c3 c5 c7
    push_cast at c3 c5 c7
    norm_num at c3 c5 c7
    generalize exp (-(π ^ 2 / 4) * Fo) = q at *
    generalize cos (π / 2 * x) = c at *
    generalize cos (3 * (π / 2 * x)) = d3 at *
    generalize cos (5 * (π / 2 * x)) = d5 at *
    generalize cos (7 * (π / 2 * x)) = d7 at *
    have p8 : q ^ 8 ≤ 0.024 := by
      have := pow_le_pow_left₀ hq0.le hq 8
      norm_num at this ⊢; linarith
    have hq1 : q ≤ 1 := by norm_num at hq; linarith
    have p24 : q ^ 24 ≤ q ^ 8 := pow_le_pow_of_le_one hq0.le hq1 (by norm_num)
    have p48 : q ^ 48 ≤ q ^ 8 := pow_le_pow_of_le_one hq0.le hq1 (by norm_num)
    have hqc : 0 ≤ q * c := by positivity
    have q9 : 0 < q ^ 9 := by positivity
    have q25 : 0 < q ^ 25 := by positivity
    have q49 : 0 < q ^ 49 := by positivity
    have k8 : q ^ 9 * c ≤ q * c * 0.024 := by
      have := mul_le_mul_of_nonneg_left p8 hqc
      linarith [show q ^ 9 * c = q * c * q ^ 8 by ring]
    have k24 : q ^ 25 * c ≤ q * c * 0.024 := by
      have := mul_le_mul_of_nonneg_left (p24.trans p8) hqc
      linarith [show q ^ 25 * c = q * c * q ^ 24 by ring]
    have k48 : q ^ 49 * c ≤ q * c * 0.024 := by
      have := mul_le_mul_of_nonneg_left (p48.trans p8) hqc
      linarith [show q ^ 49 * c = q * c * q ^ 48 by ring]
    have a3 := mul_le_mul_of_nonneg_left c3.1 q9.le
    have b3 := mul_le_mul_of_nonneg_left c3.2 q9.le
    have a5 := mul_le_mul_of_nonneg_left c5.1 q25.le
    have b5 := mul_le_mul_of_nonneg_left c5.2 q25.le
    have a7 := mul_le_mul_of_nonneg_left c7.1 q49.le
    have b7 := mul_le_mul_of_nonneg_left c7.2 q49.le
    have hqq : q * c ≤ 0.625 := by nlinarith
    have hS0 : 0 ≤ q * c - q ^ 9 / 3 * d3 + q ^ 25 / 5 * d5 - q ^ 49 / 7 * d7 := by linarith
    have hS1 : q * c - q ^ 9 / 3 * d3 + q ^ 25 / 5 * d5 - q ^ 49 / 7 * d7 ≤ 0.75 := by linarith
    have hpi := pi_pos
    have hpi3 := pi_gt_three
    constructor
    · have : 4 / π * (q * c - q ^ 9 / 3 * d3 + q ^ 25 / 5 * d5 - q ^ 49 / 7 * d7) ≤ 4 / π * 0.75 := mul_le_mul_of_nonneg_left hS1 (by positivity)
      have h4 : 4 / π * 0.75 ≤ 1 := by
        rw [div_mul_eq_mul_div, div_le_one hpi]; norm_num; linarith
      linarith
    · have := mul_nonneg (show 0 ≤ 4 / π by positivity) hS0
      linarith

example : 0 ≤ profileSheet 0.1 0.3 ∧ profileSheet 0.1 0.3 ≤ 1 := C63_sheet_range (by norm_num) (by norm_num) (by norm_num)

/-- C63. Sheet: zero at time zero, 1 at the surface (to within `exp(-64)`), 1 at long times. -/
theorem C63_sheet_limits (x : ℝ) : profileSheet 0 x = 0 ∧ (∀ Fo, 0 < Fo → |profileSheet Fo 1 - 1| ≤ exp (-64)) ∧
    Tendsto (fun Fo => profileSheet Fo x) atTop (nhds 1) := by
  refine ⟨by norm_num [profileSheet], fun Fo hF => ?_, ?_⟩
  · rcases lt_or_ge Fo (1 / 4) with h | h
    · rw [profileSheet_small hF h, sheetS_one]
      have hA := A_bounds hF h
      have := erfc_pos (8 / (2 * √Fo))
      rw [show 1 - erfc (8 / (2 * √Fo)) - 1 = -erfc (8 / (2 * √Fo)) by ring, abs_neg, abs_of_pos this]
      have h8 : 8 ≤ 8 / (2 * √Fo) := by rw [le_div_iff₀ (by linarith [hA.1])]; linarith [hA.2]
      refine (erfc_le_exp (by linarith)).trans (exp_le_exp.2 ?_)
      nlinarith
    · rw [profileSheet_large h]
      have c : ∀ k : ℕ, cos ((2 * k + 1 : ℕ) * (π / 2 * 1)) = 0 := by
        intro k
        have := cos_odd_le k (π / 2 * 1)
        rw [mul_one, cos_pi_div_two, abs_zero, mul_zero] at this
        rw [mul_one]
        exact abs_nonpos_iff.1 this
      have c1 := c 0
      have c3 := c 1
      have c5 := c 2
      have c7 := c 3
      norm_num at c1 c3 c5 c7
      norm_num [c3, c5, c7]
      exact (exp_pos _).le
  · have hq : Tendsto (fun Fo : ℝ => exp (-(π ^ 2 / 4) * Fo)) atTop (nhds 0) := by
      refine tendsto_exp_atBot.comp ?_
      exact tendsto_id.const_mul_atTop_of_neg (by have := pi_sq_lo; linarith)
    have := (((((hq.mul_const (cos (π / 2 * x))).sub (((hq.pow 9).div_const 3).mul_const (cos (3 * (π / 2 * x))))).add
      (((hq.pow 25).div_const 5).mul_const (cos (5 * (π / 2 * x))))).sub (((hq.pow 49).div_const 7).mul_const (cos (7 * (π / 2 * x))))).const_mul (4 / π)).const_sub 1
    norm_num at this
    refine this.congr' ?_
    filter_upwards [eventually_ge_atTop (1 / 4 : ℝ)] with Fo hF
    rw [profileSheet_large hF]
    norm_num

/-! ## Sphere -/

/-- C63. Sphere profile: between 0 and 1 for every Fourier number and position away from the centre. -/
theorem C63_sphere_range {Fo r : ℝ} (hF : 0 ≤ Fo) (h0 : eps ≤ r) (h1 : r ≤ 1) : 0 ≤ profileSphere Fo r ∧ profileSphere Fo r ≤ 1 := by
  have he : (0 : ℝ) < eps := by norm_num [eps]
  have hr : 0 < r := he.trans_le h0
  have hra : eps ≤ |r| := by rwa [abs_of_pos hr]
  rcases hF.eq_or_lt with rfl | hF
  · unfold profileSphere; rw [if_neg (not_lt.2 hra)]; norm_num
  rcases lt_or_ge Fo (1 / 4) with h | h
  · rw [profileSphere_small hF h hra]
    have hA := A_bounds hF h
    exact ⟨div_nonneg (sphereS_nonneg (by linarith [hA.1]) hr.le) hr.le,
      (div_le_one hr).2 (sphereS_le (by linarith [hA.1]) (by linarith [hA.2]) hr.le h1)⟩
  · rw [profileSphere_large h hra]
    have hq := sphere_q h
    have hq0 := exp_pos (-π ^ 2 * Fo)
    have hpi := pi_pos
    have hs0 : 0 ≤ sin (π * r) := sin_nonneg_of_nonneg_of_le_pi (by positivity) (by nlinarith)
    have hs1 : sin (π * r) ≤ π * r := sin_le (by positivity)
    have c2 := sin_nat_mul_le 2 (π * r)
    have c3 := sin_nat_mul_le 3 (π * r)
    rw [abs_of_nonneg hs0, abs_le] at c2 c3
    push_cast at c2 c3
    have hu : 0 < π * r := by positivity
    generalize exp (-π ^ 2 * Fo) = q at *
    generalize sin (2 * (π * r)) = s2 at *
    generalize sin (3 * (π * r)) = s3 at *
    generalize sin (π * r) = s at *
    generalize π * r = u at *
    have p3 : q ^ 3 ≤ 0.03 := by
      have := pow_le_pow_left₀ hq0.le hq 3
      norm_num at this ⊢; linarith
    have hq1 : q ≤ 1 := by norm_num at hq; linarith
    have p8 : q ^ 8 ≤ q ^ 3 := pow_le_pow_of_le_one hq0.le hq1 (by norm_num)
    have hqs : 0 ≤ q * s := by positivity
    have k4 : q ^ 4 * s ≤ q * s * 0.03 := by
      have := mul_le_mul_of_nonneg_left p3 hqs
      linarith [show q ^ 4 * s = q * s * q ^ 3 by ring]
    have k9 : q ^ 9 * s ≤ q * s * 0.03 := by
      have := mul_le_mul_of_nonneg_left (p8.trans p3) hqs
      linarith [show q ^ 9 * s = q * s * q ^ 8 by ring]
    have q4 : 0 < q ^ 4 := by positivity
    have q9 : 0 < q ^ 9 := by positivity
    have a2 := mul_le_mul_of_nonneg_left c2.1 q4.le
    have b2 := mul_le_mul_of_nonneg_left c2.2 q4.le
    have a3 := mul_le_mul_of_nonneg_left c3.1 q9.le
    have b3 := mul_le_mul_of_nonneg_left c3.2 q9.le
    have hqu : q * s ≤ 0.3 * u := mul_le_mul hq hs1 hs0 (by norm_num)
    have hS1 : -q * s + q ^ 4 / 2 * s2 - q ^ 9 / 3 * s3 ≤ 0 := by linarith
    have hS0 : -(1 / 2) * u ≤ -q * s + q ^ 4 / 2 * s2 - q ^ 9 / 3 * s3 := by linarith
    constructor
    · have := mul_le_mul_of_nonneg_left hS0 (show 0 ≤ 2 / u by positivity)
      have h2 : 2 / u * (-(1 / 2) * u) = -1 := by field_simp
      linarith
    · have := mul_nonpos_of_nonneg_of_nonpos (show 0 ≤ 2 / u by positivity) hS1
      linarith

example : 0 ≤ profileSphere 0.1 0.3 ∧ profileSphere 0.1 0.3 ≤ 1 := C63_sphere_range (by norm_num) (by norm_num [eps]) (by norm_num)

/-- C63. At the centre of the sphere, the result is a fraction provided the Fourier number is at least 0.05. -/
theorem C63_sphere_center_partial {Fo r : ℝ} (hF : 1 / 20 ≤ Fo) (hr : |r| < eps) : 0 ≤ profileSphere Fo r ∧ profileSphere Fo r ≤ 1 := by
  rw [profileSphere_center hr]
  have hq0 := exp_pos (-π ^ 2 * Fo)
  have hq : exp (-π ^ 2 * Fo) ≤ 0.6212 := by
    have := pi_sq_lo
    have h1 : exp (-π ^ 2 * Fo) ≤ exp (-0.49) := exp_le_exp.2 (by nlinarith)
    refine h1.trans ?_
    rw [exp_neg, inv_le_comm₀ (exp_pos _) (by norm_num)]
    have := quadratic_le_exp_of_nonneg (show (0 : ℝ) ≤ 0.49 by norm_num)
    norm_num at this ⊢
    linarith
  generalize exp (-π ^ 2 * Fo) = q at *
  have h5 : q ^ 5 ≤ 0.1 := by
    have := pow_le_pow_left₀ hq0.le hq 5
    norm_num at this ⊢; linarith
  have h9 : q ^ 9 ≤ 0.1 * q ^ 4 := by
    have := mul_le_mul_of_nonneg_right h5 (show 0 ≤ q ^ 4 by positivity)
    linarith [show q ^ 9 = q ^ 5 * q ^ 4 by ring]
  have h3 : q ^ 3 ≤ 1 := pow_le_one₀ hq0.le (by norm_num at hq; linarith)
  have h9' : 0 < q ^ 9 := by positivity
  constructor
  · have ht : 0.6212 ^ 4 + 4 * 0.6212 ^ 3 * (q - 0.6212) ≤ q ^ 4 := by
      nlinarith [mul_nonneg (sq_nonneg (q - 0.6212)) (show 0 ≤ q ^ 2 + 2 * 0.6212 * q + 3 * 0.6212 ^ 2 by positivity)]
    norm_num at ht hq h9 ⊢
    linarith
  · have : q ^ 4 = q * q ^ 3 := by ring
    nlinarith

example : 0 ≤ profileSphere 0.1 0 ∧ profileSphere 0.1 0 ≤ 1 := C63_sphere_center_partial (by norm_num) (by norm_num [eps])

/-- C63 is false at the centre at short times: `-1` instead of `0` at time zero, and a negative concentration at `Fo = 0.02`. -/
theorem C63_sphere_center_false : profileSphere 0 0 = -1 ∧ profileSphere (1 / 50) 0 < 0 := by
  have he : |(0 : ℝ)| < eps := by norm_num [eps]
  rw [profileSphere_center he, profileSphere_center he]
  refine ⟨by norm_num, ?_⟩
  have h1 := pi_sq_lo
  have h2 := pi_sq_hi
  have hlo : 0.81 ≤ exp (-π ^ 2 * (1 / 50)) := by
    have h3 : exp (-π ^ 2 * (1 / 50)) = exp (-π ^ 2 * (1 / 100)) ^ 2 := by rw [← exp_nat_mul]; congr 1; push_cast; ring
    have h4 := add_one_le_exp (-π ^ 2 * (1 / 100))
    rw [h3]
    have h5 : 0.9 ≤ exp (-π ^ 2 * (1 / 100)) := by norm_num at h2 h4 ⊢; linarith
    have := pow_le_pow_left₀ (by norm_num) h5 2
    norm_num at this ⊢
    linarith
  have hhi : exp (-π ^ 2 * (1 / 50)) ≤ 0.8225 := by
    have h3 : exp (-π ^ 2 * (1 / 50)) ≤ exp (-0.197) := exp_le_exp.2 (by norm_num at h1 ⊢; linarith)
    refine h3.trans ?_
    rw [exp_neg, inv_le_comm₀ (exp_pos _) (by norm_num)]
    have := quadratic_le_exp_of_nonneg (show (0 : ℝ) ≤ 0.197 by norm_num)
    norm_num at this ⊢
    linarith
  generalize exp (-π ^ 2 * (1 / 50)) = q at *
  have hq0 : 0 ≤ q := by norm_num at hlo; linarith
  have a4 := pow_le_pow_left₀ hq0 hhi 4
  have a5 := pow_le_pow_left₀ (by norm_num) hlo 5
  have h9 : q ^ 9 = q ^ 4 * q ^ 5 := by ring
  have h4 : 0 ≤ q ^ 4 := by positivity
  rw [h9]
  have := mul_le_mul_of_nonneg_left a5 h4
  norm_num at *
  nlinarith

/-- C63. Sphere: zero at time zero away from the centre, 1 at the surface (to within `exp(-64)`), 1 at long times. -/
theorem C63_sphere_limits (r : ℝ) : (eps ≤ |r| → profileSphere 0 r = 0) ∧ (∀ Fo, 0 < Fo → |profileSphere Fo 1 - 1| ≤ exp (-64)) ∧
    Tendsto (fun Fo => profileSphere Fo r) atTop (nhds 1) := by
  have he : (eps : ℝ) ≤ |1| := by norm_num [eps]
  refine ⟨fun h => by unfold profileSphere; rw [if_neg (not_lt.2 h), if_pos rfl], fun Fo hF => ?_, ?_⟩
  · rcases lt_or_ge Fo (1 / 4) with h | h
    · rw [profileSphere_small hF h he]
      have hA := A_bounds hF h
      have := erfc_pos (8 / (2 * √Fo))
      have e : sphereS (2 * √Fo) 1 = 1 - erfc (8 / (2 * √Fo)) := by
        unfold sphereS; norm_num [erfc_zero]
      rw [e, div_one, show 1 - erfc (8 / (2 * √Fo)) - 1 = -erfc (8 / (2 * √Fo)) by ring, abs_neg, abs_of_pos this]
      have h8 : 8 ≤ 8 / (2 * √Fo) := by rw [le_div_iff₀ (by linarith [hA.1])]; linarith [hA.2]
      refine (erfc_le_exp (by linarith)).trans (exp_le_exp.2 ?_)
      nlinarith
    · rw [profileSphere_large h he]
      have c : ∀ k : ℕ, sin (k * (π * 1)) = 0 := by intro k; rw [mul_one, sin_nat_mul_pi]
      have c2 := c 2
      have c3 := c 3
      norm_num at c2 c3
      norm_num [c2, c3]
      exact (exp_pos _).le
  · have hq : Tendsto (fun Fo : ℝ => exp (-π ^ 2 * Fo)) atTop (nhds 0) := by
      refine tendsto_exp_atBot.comp ?_
      exact tendsto_id.const_mul_atTop_of_neg (by have := pi_sq_lo; linarith)
    rcases lt_or_ge |r| eps with hr | hr
    · have := (((hq.const_mul 2).const_sub 1).add ((hq.pow 4).const_mul 2)).sub ((hq.pow 9).const_mul 2)
      norm_num at this
      refine this.congr fun Fo => ?_
      rw [profileSphere_center hr]
      norm_num
    · have := (((hq.neg.mul_const (sin (π * r))).add (((hq.pow 4).div_const 2).mul_const (sin (2 * (π * r))))).sub
        (((hq.pow 9).div_const 3).mul_const (sin (3 * (π * r))))).const_mul (2 / (π * r)) |>.const_add 1
      norm_num at this
      refine this.congr' ?_
      filter_upwards [eventually_ge_atTop (1 / 4 : ℝ)] with Fo hF
      rw [profileSphere_large hF hr]
      norm_num

/-! ## Uptake -/

/-- C63. Sheet uptake: between 0 and 1 for every Fourier number, positive after time zero. -/
theorem C63_uptake_sheet_range {Fo : ℝ} (hF : 0 ≤ Fo) : 0 ≤ uptakeSheet Fo ∧ uptakeSheet Fo ≤ 1 ∧ (0 < Fo → 0 < uptakeSheet Fo) := by
  rcases hF.eq_or_lt with rfl | hF
  · norm_num [uptakeSheet]
  suffices h : 0 < uptakeSheet Fo ∧ uptakeSheet Fo ≤ 1 from ⟨h.1.le, h.2, fun _ => h.1⟩
  rcases lt_or_ge Fo (1 / 4) with h | h
  · have hA := A_bounds hF h
    unfold uptakeSheet
    rw [if_neg hF.ne', if_pos h]
    simp only [sum14, sgn1, sgn2, sgn3]
    push_cast
    have h1 : ierfc (1 / √Fo) ≤ 1 / 54 / √π / 8 := ierfc_two (by rw [le_div_iff₀ hA.1]; linarith [hA.2])
    have h2 : ierfc (2 / √Fo) ≤ ierfc (1 / √Fo) := ierfc_anti (div_le_div_of_nonneg_right (by norm_num) hA.1.le)
    have h3 : ierfc (3 / √Fo) ≤ ierfc (2 / √Fo) := ierfc_anti (div_le_div_of_nonneg_right (by norm_num) hA.1.le)
    have h0 := ierfc_nonneg (3 / √Fo)
    have hs := sqrt_pi_bounds
    have hsp : 0 < √π := by norm_num at hs; linarith
    have e : 1 / 54 / √π / 8 = 1 / √π * (1 / 432) := by ring
    rw [e] at h1
    have hi : 0 < 1 / √π := by positivity
    have hi1 : 1 / √π ≤ 1 := by rw [div_le_one hsp]; norm_num at hs; linarith
    generalize 1 / √π = p at *
    generalize √Fo = A at *
    generalize ierfc (1 / A) = i1 at *
    generalize ierfc (2 / A) = i2 at *
    generalize ierfc (3 / A) = i3 at *
    have hx : 0 < p + 2 * (-1 * i1 + 1 * i2 + -1 * i3) := by linarith
    refine ⟨mul_pos (by linarith) hx, ?_⟩
    nlinarith
  · rw [uptakeSheet_large h]
    have hq := sheet_q h
    have hq0 := exp_pos (-(π ^ 2 / 4) * Fo)
    generalize exp (-(π ^ 2 / 4) * Fo) = q at *
    have h9 : q ^ 9 ≤ 1 := pow_le_one₀ hq0.le (by norm_num at hq; linarith)
    have h25 : q ^ 25 ≤ 1 := pow_le_one₀ hq0.le (by norm_num at hq; linarith)
    have hp := pi_sq_lo
    have hp0 : 0 < π ^ 2 := by positivity
    constructor
    · have : 8 / π ^ 2 * (q + q ^ 9 / 9 + q ^ 25 / 25) < 1 := by
        rw [div_mul_eq_mul_div, div_lt_one hp0]
        norm_num at hp hq
        linarith
      linarith
    · have : 0 ≤ 8 / π ^ 2 * (q + q ^ 9 / 9 + q ^ 25 / 25) := by positivity
      linarith

example : 0 ≤ uptakeSheet 0.1 ∧ uptakeSheet 0.1 ≤ 1 ∧ ((0 : ℝ) < 0.1 → 0 < uptakeSheet 0.1) := C63_uptake_sheet_range (by norm_num)

/-- C63. Sphere uptake: between 0 and 1 for every Fourier number, positive after time zero. -/
theorem C63_uptake_sphere_range {Fo : ℝ} (hF : 0 ≤ Fo) : 0 ≤ uptakeSphere Fo ∧ uptakeSphere Fo ≤ 1 ∧ (0 < Fo → 0 < uptakeSphere Fo) := by
  rcases hF.eq_or_lt with rfl | hF
  · norm_num [uptakeSphere]
  suffices h : 0 < uptakeSphere Fo ∧ uptakeSphere Fo ≤ 1 from ⟨h.1.le, h.2, fun _ => h.1⟩
  rcases lt_or_ge Fo (1 / 4) with h | h
  · have hA := A_bounds hF h
    unfold uptakeSphere
    rw [if_neg hF.ne', if_pos h]
    simp only [sum14]
    push_cast
    have hFA : Fo = √Fo ^ 2 := (sq_sqrt hF.le).symm
    have h1 : ierfc (1 / √Fo) ≤ 1 / 54 / √π / 8 := ierfc_two (by rw [le_div_iff₀ hA.1]; linarith [hA.2])
    have h2 : ierfc (2 / √Fo) ≤ ierfc (1 / √Fo) := ierfc_anti (div_le_div_of_nonneg_right (by norm_num) hA.1.le)
    have h3 : ierfc (3 / √Fo) ≤ ierfc (2 / √Fo) := ierfc_anti (div_le_div_of_nonneg_right (by norm_num) hA.1.le)
    have h0 := ierfc_nonneg (3 / √Fo)
    have hs := sqrt_pi_bounds
    have hsp : 0 < √π := by norm_num at hs; linarith
    have e : 1 / 54 / √π / 8 = 1 / √π * (1 / 432) := by ring
    rw [e] at h1
    have hi1 : 1 / √π ≤ 0.5644 := by rw [div_le_iff₀ hsp]; norm_num at hs ⊢; linarith
    have hi0 : 0.5 ≤ 1 / √π := by rw [le_div_iff₀ hsp]; norm_num at hs ⊢; linarith
    rw [show 3 * Fo = 3 * √Fo ^ 2 by rw [sq_sqrt hF.le]]
    generalize 1 / √π = p at *
    generalize √Fo = A at *
    generalize ierfc (1 / A) = i1 at *
    generalize ierfc (2 / A) = i2 at *
    generalize ierfc (3 / A) = i3 at *
    have hx : p ≤ p + 2 * (i1 + i2 + i3) := by linarith
    have hx2 : p + 2 * (i1 + i2 + i3) ≤ 0.5724 := by norm_num at hi1 ⊢; linarith
    generalize p + 2 * (i1 + i2 + i3) = S at *
    norm_num at hx2 hi0
    constructor <;> nlinarith [sq_nonneg (A - 0.5)]
  · rw [uptakeSphere_large h]
    have hq := sphere_q h
    have hq0 := exp_pos (-π ^ 2 * Fo)
    generalize exp (-π ^ 2 * Fo) = q at *
    have h4 : q ^ 4 ≤ 1 := pow_le_one₀ hq0.le (by norm_num at hq; linarith)
    have h9 : q ^ 9 ≤ 1 := pow_le_one₀ hq0.le (by norm_num at hq; linarith)
    have hp := pi_sq_lo
    have hp0 : 0 < π ^ 2 := by positivity
    constructor
    · have : 6 / π ^ 2 * (q + q ^ 4 / 4 + q ^ 9 / 9) < 1 := by
        rw [div_mul_eq_mul_div, div_lt_one hp0]
        norm_num at hp hq
        linarith
      linarith
    · have : 0 ≤ 6 / π ^ 2 * (q + q ^ 4 / 4 + q ^ 9 / 9) := by positivity
      linarith

example : 0 ≤ uptakeSphere 0.1 ∧ uptakeSphere 0.1 ≤ 1 ∧ ((0 : ℝ) < 0.1 → 0 < uptakeSphere 0.1) := C63_uptake_sphere_range (by norm_num)

/-- C63. Uptakes are zero at time zero and tend to 1. -/
theorem C63_uptake_limits : uptakeSheet 0 = 0 ∧ uptakeSphere 0 = 0 ∧ Tendsto uptakeSheet atTop (nhds 1) ∧ Tendsto uptakeSphere atTop (nhds 1) := by
  refine ⟨by norm_num [uptakeSheet], by norm_num [uptakeSphere], ?_, ?_⟩
  · have hq : Tendsto (fun Fo : ℝ => exp (-(π ^ 2 / 4) * Fo)) atTop (nhds 0) := by
      refine tendsto_exp_atBot.comp ?_
      exact tendsto_id.const_mul_atTop_of_neg (by have := pi_sq_lo; linarith)
    have := ((hq.add ((hq.pow 9).div_const 9)).add ((hq.pow 25).div_const 25)).const_mul (8 / π ^ 2) |>.const_sub 1
    norm_num at this
    refine this.congr' ?_
    filter_upwards [eventually_ge_atTop (1 / 4 : ℝ)] with Fo hF
    rw [uptakeSheet_large hF]
    norm_num
  · have hq : Tendsto (fun Fo : ℝ => exp (-π ^ 2 * Fo)) atTop (nhds 0) := by
      refine tendsto_exp_atBot.comp ?_
      exact tendsto_id.const_mul_atTop_of_neg (by have := pi_sq_lo; linarith)
    have := ((hq.add ((hq.pow 4).div_const 4)).add ((hq.pow 9).div_const 9)).const_mul (6 / π ^ 2) |>.const_sub 1
    norm_num at this
    refine this.congr' ?_
    filter_upwards [eventually_ge_atTop (1 / 4 : ℝ)] with Fo hF
    rw [uptakeSphere_large hF]
    norm_num

end Verif.Diffusion
