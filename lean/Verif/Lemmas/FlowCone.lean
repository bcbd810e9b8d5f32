import Verif.Lemmas.FlowAccuracy
import Verif.Lemmas.FlowStep

/-!
# Helper lemmas: the slope of the drag balance of `vt_sphere` at intermediate Reynolds numbers
-/

namespace Verif.Flow

open Real

theorem cone_mid1 {b x y d : ℝ} (hb : 0 < b) (hx : 1 / 2 ≤ x) (hd : 0 < d) (hy : -(1.09 * d) ≤ y) : -(0.413 * (b * y)) ≤ 0.25 * d * ((1 + b * x) ^ 2 + (b * y) ^ 2) := by
  have h1 : b * -y ≤ b * (1.09 * d) := mul_le_mul_of_nonneg_left (by linarith) hb.le
  have h2 : b * (1 / 2) ≤ b * x := mul_le_mul_of_nonneg_left hx hb.le
  have h3 : 2 * b ≤ (1 + b * x) ^ 2 := by nlinarith [sq_nonneg (1 - b * x)]
  have h4 := mul_le_mul_of_nonneg_left h3 hd.le
  have h5 := mul_nonneg hd.le (sq_nonneg (b * y))
  have h6 := mul_pos hd hb
  nlinarith

theorem cone_mid2 {Q a c d u v : ℝ} (hQ : 0.46 ≤ Q) (ha : 0 ≤ a) (hc : 0 ≤ c) (hca : c ≤ d * a) (hd : 0 < d) (hu : 0 ≤ u) (hv : 0 ≤ v) (hvd : v ≤ 0.25 * d) :
    Q ≤ Q * (1 + 0.173 * a + 0.173 * d * c) + u ∧ Q * (0.173 * c - d - 0.173 * d * a) + v ≤ 0 ∧
      -(d * (Q * (1 + 0.173 * a + 0.173 * d * c) + u)) ≤ Q * (0.173 * c - d - 0.173 * d * a) + v := by
  have h0 : 0 ≤ Q := by linarith
  have h1 := mul_nonneg hd.le hc
  refine ⟨?_, ?_, ?_⟩
  · have := mul_le_mul_of_nonneg_left (show 1 ≤ 1 + 0.173 * a + 0.173 * d * c by nlinarith) h0
    linarith
  · have := mul_le_mul_of_nonneg_left (show 0.173 * c - d - 0.173 * d * a ≤ -d by nlinarith) h0
    nlinarith
  · have h2 : -(d * (1 + 0.173 * a + 0.173 * d * c)) ≤ 0.173 * c - d - 0.173 * d * a := by nlinarith [mul_nonneg hd.le h1]
    have h3 := mul_le_mul_of_nonneg_left h2 h0
    nlinarith [mul_nonneg hd.le hu]

set_option maxHeartbeats 1000000 in
/-- The drag coefficient at `R (1 + i d)`, for `R` up to 50. -/
theorem cd_cone_mid {R d : ℝ} (hR : 0 < R) (hR1 : R ≤ 50) (hd : 0 < d) (hd1 : d ≤ 1 / 1000) {C : ℂ}
    (hC : C = 24 / (⟨R, R * d⟩ : ℂ) * (1 + 0.173 * (⟨R, R * d⟩ : ℂ) ^ (0.657 : ℂ)) + 0.413 / (1 + 16300 * (⟨R, R * d⟩ : ℂ) ^ (-1.09 : ℂ))) :
    24 / R / (1 + d ^ 2) ≤ C.re ∧ C.im ≤ 0 ∧ -(d * C.re) ≤ C.im := by
  have ht0 : 0 < arctan d := by rw [← arctan_zero]; exact arctan_strictMono hd
  have htd : arctan d ≤ d := by
    have h := le_tan ht0.le (arctan_lt_pi_div_two d)
    rwa [tan_arctan] at h
  have htan : tan (arctan d) = d := tan_arctan d
  have hpi := pi_gt_three
  have hq : 1 ≤ √(1 + d ^ 2) := by rw [one_le_sqrt]; nlinarith
  have hqs : √(1 + d ^ 2) ^ 2 = 1 + d ^ 2 := sq_sqrt (by positivity)
  have e1 := cpow_offset (d := d) (p := 0.657) hR
  have e2 := cpow_offset (d := d) (p := -1.09) hR
  rw [show ((0.657 : ℝ) : ℂ) = (0.657 : ℂ) by push_cast; norm_num] at e1
  rw [show ((-1.09 : ℝ) : ℂ) = (-1.09 : ℂ) by push_cast; norm_num] at e2
  have hA0 : 0 < (R * √(1 + d ^ 2)) ^ (0.657 : ℝ) := by positivity
  have hB0 : 0 < (R * √(1 + d ^ 2)) ^ (-1.09 : ℝ) := by positivity
  generalize arctan d = t at ht0 htd htan e1 e2
  -- angles
  have c1 : 0 < cos (t * 0.657) := cos_pos_of_mem_Ioo ⟨by linarith, by linarith⟩
  have s1 : 0 ≤ sin (t * 0.657) := sin_nonneg_of_nonneg_of_le_pi (by linarith) (by linarith)
  have t1 : sin (t * 0.657) ≤ d * cos (t * 0.657) := by
    have : tan (t * 0.657) ≤ tan t := (strictMonoOn_tan.monotoneOn) ⟨by linarith, by linarith⟩ ⟨by linarith, by linarith⟩ (by linarith)
    rw [htan, tan_eq_sin_div_cos, div_le_iff₀ c1] at this
    exact this
  have s2 : sin (t * -1.09) ≤ 0 := sin_nonpos_of_nonpos_of_neg_pi_le (by linarith) (by linarith)
  have t2 : -(1.09 * d) ≤ sin (t * -1.09) := by
    have := sin_le (x := t * 1.09) (by linarith)
    rw [show t * -1.09 = -(t * 1.09) by ring, sin_neg]
    linarith
  have c2 : 1 / 2 ≤ cos (t * -1.09) := by
    have := one_sub_sq_div_two_le_cos (x := t * -1.09)
    nlinarith
  rw [e1, e2] at hC
  generalize (R * √(1 + d ^ 2)) ^ (0.657 : ℝ) = A at hA0 hC
  generalize (R * √(1 + d ^ 2)) ^ (-1.09 : ℝ) = B at hB0 hC
  generalize cos (t * 0.657) = x1 at c1 t1 hC
  generalize sin (t * 0.657) = y1 at s1 t1 hC
  generalize cos (t * -1.09) = x2 at c2 hC
  generalize sin (t * -1.09) = y2 at s2 t2 hC
  have hb : 0 < 16300 * B := by positivity
  generalize hbb : 16300 * B = b at hb
  have ew : (1 + 16300 * (⟨B * x2, B * y2⟩ : ℂ)) = ⟨1 + b * x2, b * y2⟩ := by
    subst hbb; apply Complex.ext <;> simp <;> ring
  rw [ew] at hC
  have hbx : 0 < b * x2 := by positivity
  have hN : 0 < (1 + b * x2) ^ 2 + (b * y2) ^ 2 := by positivity
  have e3 : (0.413 : ℂ) / ⟨1 + b * x2, b * y2⟩ = ⟨0.413 * (1 + b * x2) / ((1 + b * x2) ^ 2 + (b * y2) ^ 2), -(0.413 * (b * y2)) / ((1 + b * x2) ^ 2 + (b * y2) ^ 2)⟩ := by
    rw [div_eq_iff (by intro h; have := congrArg Complex.re h; simp at this; linarith)]
    apply Complex.ext <;> simp <;> field_simp <;> ring_nf
  have e4 : (24 : ℂ) / ⟨R, R * d⟩ = ⟨24 / R / (1 + d ^ 2), -(24 / R / (1 + d ^ 2) * d)⟩ := by
    rw [div_eq_iff (by intro h; have := congrArg Complex.re h; simp at this; linarith)]
    apply Complex.ext <;> simp <;> field_simp <;> ring_nf
  have hre : C.re = 24 / R / (1 + d ^ 2) * (1 + 0.173 * A * x1 + 0.173 * A * d * y1) + 0.413 * (1 + b * x2) / ((1 + b * x2) ^ 2 + (b * y2) ^ 2) := by
    rw [hC, e3, e4]
    simp
    ring
  have him : C.im = 24 / R / (1 + d ^ 2) * (0.173 * A * y1 - d - 0.173 * A * d * x1) + -(0.413 * (b * y2)) / ((1 + b * x2) ^ 2 + (b * y2) ^ 2) := by
    rw [hC, e3, e4]
    simp
    ring
  have hR24 : 0.48 ≤ 24 / R := by rw [le_div_iff₀ hR]; linarith
  have hQ : 0.46 ≤ 24 / R / (1 + d ^ 2) := by rw [le_div_iff₀ (by positivity)]; nlinarith
  have h3a : 0 ≤ 0.413 * (1 + b * x2) / ((1 + b * x2) ^ 2 + (b * y2) ^ 2) := by positivity
  have h3b : 0 ≤ -(0.413 * (b * y2)) / ((1 + b * x2) ^ 2 + (b * y2) ^ 2) := div_nonneg (by nlinarith) hN.le
  have h3c : -(0.413 * (b * y2)) / ((1 + b * x2) ^ 2 + (b * y2) ^ 2) ≤ 0.25 * d := by
    rw [div_le_iff₀ hN]
    exact cone_mid1 hb c2 hd t2
  generalize 0.413 * (1 + b * x2) / ((1 + b * x2) ^ 2 + (b * y2) ^ 2) = u at hre h3a
  generalize -(0.413 * (b * y2)) / ((1 + b * x2) ^ 2 + (b * y2) ^ 2) = v at him h3b h3c
  generalize 24 / R / (1 + d ^ 2) = Q at hQ hre him ⊢
  have hAx : 0 ≤ A * x1 := by positivity
  have hAy : 0 ≤ A * y1 := by positivity
  have hAxy : A * y1 ≤ d * (A * x1) := (mul_le_mul_of_nonneg_left t1 hA0.le).trans (le_of_eq (by ring))
  obtain ⟨r1, r2, r3⟩ := cone_mid2 hQ hAx hAy hAxy hd h3a h3b h3c
  have f1 : C.re = Q * (1 + 0.173 * (A * x1) + 0.173 * d * (A * y1)) + u := by rw [hre]; ring
  have f2 : C.im = Q * (0.173 * (A * y1) - d - 0.173 * d * (A * x1)) + v := by rw [him]; ring
  rw [f1, f2]
  exact ⟨r1, r2, r3⟩

/-- What the solver sees at a trial velocity `x` with a Reynolds number up to 50. -/
theorem vtEq_mid {g Dp rhop rho mu x : ℝ} (hg : 0 < g) (hDp : 0 < Dp) (hr : rho < rhop) (hrho : 0 < rho) (hmu : 0 < mu) (hx : 1e-9 ≤ x)
    (hR1 : rho * x * Dp / mu ≤ 50) :
    ∃ a b, vtEq g Dp rhop rho mu (x, eps) = (x - a, eps - b) ∧ 0 < a ∧ 0 ≤ b ∧ b ≤ eps / x / 2 * a := by
  have he : (0 : ℝ) < eps := by norm_num [eps]
  have he1 : (eps : ℝ) ≤ 2.3e-16 := by norm_num [eps]
  have hx0 : 0 < x := by linarith
  have hd : 0 < eps / x := by positivity
  have hd1 : eps / x ≤ 1 / 1000 := by rw [div_le_iff₀ hx0]; linarith
  have hR : 0 < rho * x * Dp / mu := by positivity
  have hΔ : 0 < rhop - rho := by linarith
  have eRep : (rho * toC (x, eps) * Dp / mu : ℂ) = ⟨rho * x * Dp / mu, rho * x * Dp / mu * (eps / x)⟩ := by
    have : toC (x, eps) = (x : ℂ) + (eps : ℝ) * Complex.I := by apply Complex.ext <;> simp [toC]
    rw [this, div_eq_iff (by exact_mod_cast hmu.ne')]
    apply Complex.ext <;> simp <;> field_simp
  have hK : 0 < 4 * Dp * g * (rhop - rho) / (3 * rho) := by positivity
  unfold vtEq
  simp only [eRep]
  obtain ⟨C, hC⟩ : ∃ C : ℂ, C = 24 / (⟨rho * x * Dp / mu, rho * x * Dp / mu * (eps / x)⟩ : ℂ) * (1 + 0.173 * (⟨rho * x * Dp / mu, rho * x * Dp / mu * (eps / x)⟩ : ℂ) ^ (0.657 : ℂ)) +
      0.413 / (1 + 16300 * (⟨rho * x * Dp / mu, rho * x * Dp / mu * (eps / x)⟩ : ℂ) ^ (-1.09 : ℂ)) := ⟨_, rfl⟩
  obtain ⟨h1, h2, h3⟩ := cd_cone_mid hR hR1 hd hd1 hC
  rw [← hC]
  clear hC eRep
  generalize rho * x * Dp / mu = R at *
  generalize eps / x = d at hd hd1 h1 h3 ⊢
  have hC0 : 0 < C.re := lt_of_lt_of_le (by positivity) h1
  have ew : ((4 * Dp * g * (rhop - rho) : ℝ) : ℂ) / (3 * C * rho) = ((4 * Dp * g * (rhop - rho) / (3 * rho) : ℝ) : ℂ) / C := by
    have : (rho : ℂ) ≠ 0 := by exact_mod_cast hrho.ne'
    have : C ≠ 0 := by rintro rfl; simp at hC0
    push_cast
    field_simp
  rw [ew]
  generalize 4 * Dp * g * (rhop - rho) / (3 * rho) = K at hK
  have hns : 0 < Complex.normSq C := Complex.normSq_pos.2 (by rintro rfl; simp at hC0)
  have hwr : ((K : ℂ) / C).re = K * C.re / Complex.normSq C := by simp [Complex.div_re]
  have hwi : ((K : ℂ) / C).im = -(K * C.im) / Complex.normSq C := by simp [Complex.div_im]; ring
  obtain ⟨q1, q2, q3, -⟩ := sqrt_cone (w := (K : ℂ) / C) (d := d) (by rw [hwr]; positivity) (by rw [hwi]; exact div_nonneg (by nlinarith) hns.le)
    (by rw [hwr, hwi, mul_div_assoc', div_le_div_iff_of_pos_right hns]; nlinarith)
  refine ⟨(((K : ℂ) / C) ^ (1 / 2 : ℂ)).re, (((K : ℂ) / C) ^ (1 / 2 : ℂ)).im, ?_, q1, q2, q3⟩
  simp only [toC, Complex.sub_re, Complex.sub_im]

end Verif.Flow
