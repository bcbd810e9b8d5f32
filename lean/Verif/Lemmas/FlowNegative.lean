import Verif.Lemmas.FlowLinear
import Verif.Lemmas.Interval
import Mathlib.Analysis.SpecialFunctions.Trigonometric.Bounds

/-!
# Helper lemmas: the drag balance of `vt_sphere` at a negative velocity
-/

namespace Verif.Flow

open Real

/-- A power of `-w`, for `w` just below the positive real axis. -/
theorem cpow_neg_below {w : ℂ} (hw : w.im < 0) (p : ℝ) : (-w) ^ (p : ℂ) = w ^ (p : ℂ) * ((cos (π * p) : ℝ) + (sin (π * p) : ℝ) * Complex.I) := by
  have h0 : w ≠ 0 := by rintro rfl; simp at hw
  rw [Complex.cpow_def_of_ne_zero (neg_ne_zero.2 h0), Complex.cpow_def_of_ne_zero h0]
  have h1 : Complex.log (-w) = Complex.log w + π * Complex.I := by
    unfold Complex.log
    rw [Complex.arg_neg_eq_arg_add_pi_of_im_neg hw, norm_neg]
    push_cast
    ring
  rw [h1, add_mul, Complex.exp_add, show (π : ℂ) * Complex.I * p = ((π * p : ℝ) : ℂ) * Complex.I by push_cast; ring, Complex.exp_mul_I, Complex.ofReal_cos, Complex.ofReal_sin]

theorem sin_657 : 0.68 ≤ sin (π * 0.657) := by
  rw [← sin_pi_sub, show π - π * 0.657 = π * 0.343 by ring]
  have h := mul_le_sin (x := π * 0.343) (by positivity) (by linarith [pi_pos])
  have e : 2 / π * (π * 0.343) = 0.686 := by field_simp; norm_num
  rw [e] at h
  linarith

theorem sin_109 : 0.18 ≤ sin (π * -1.09) := by
  rw [show π * -1.09 = π * 0.91 - 2 * π by ring, sin_sub_two_pi, ← sin_pi_sub, show π - π * 0.91 = π * 0.09 by ring]
  have h := mul_le_sin (x := π * 0.09) (by positivity) (by linarith [pi_pos])
  have e : 2 / π * (π * 0.09) = 0.18 := by field_simp; norm_num
  rw [e] at h
  exact h

/-- The last term of the drag coefficient. -/
theorem cd_neg_last {b c s : ℝ} {W : ℂ} (hb : 0 < b) (hs : 0.18 ≤ s) (h1 : c ^ 2 + s ^ 2 = 1) (hW : ‖W - 1‖ ≤ 1e-4) :
    (0.413 / (1 + (b : ℂ) * (W * ((c : ℂ) + (s : ℂ) * Complex.I)))).im ≤ 0 ∧ ‖0.413 / (1 + (b : ℂ) * (W * ((c : ℂ) + (s : ℂ) * Complex.I)))‖ ≤ 2.43 := by
  set D : ℂ := 1 + (b : ℂ) * ((c : ℂ) + (s : ℂ) * Complex.I) with hD
  set e : ℂ := (b : ℂ) * ((W - 1) * ((c : ℂ) + (s : ℂ) * Complex.I)) with he
  have eD : 1 + (b : ℂ) * (W * ((c : ℂ) + (s : ℂ) * Complex.I)) = D + e := by rw [hD, he]; ring
  have nE : ‖(c : ℂ) + (s : ℂ) * Complex.I‖ = 1 := by
    rw [Complex.norm_add_mul_I, h1, sqrt_one]
  have ne : ‖e‖ ≤ b * 1e-4 := by
    rw [he, norm_mul, norm_mul, nE, mul_one, Complex.norm_real, norm_of_nonneg hb.le]
    exact mul_le_mul_of_nonneg_left hW hb.le
  have dre : D.re = 1 + b * c := by simp [hD]
  have dim : D.im = b * s := by simp [hD]
  have nD2 : ‖D‖ ^ 2 = (1 + b * c) ^ 2 + (b * s) ^ 2 := by rw [Complex.sq_norm, Complex.normSq_apply, dre, dim]; ring
  have nD1 : s ≤ ‖D‖ := by
    refine (pow_le_pow_iff_left₀ (by linarith) (norm_nonneg _) two_ne_zero).1 ?_
    rw [nD2]
    nlinarith [sq_nonneg (b + c)]
  have nDb : b * s ≤ ‖D‖ := by
    refine (pow_le_pow_iff_left₀ (by positivity) (norm_nonneg _) two_ne_zero).1 ?_
    rw [nD2]
    nlinarith [sq_nonneg (1 + b * c)]
  have nD' : 0.17 ≤ ‖D + e‖ := by
    have := norm_sub_norm_le D (-e)
    rw [sub_neg_eq_add, norm_neg] at this
    nlinarith
  rw [eD]
  constructor
  · rw [Complex.div_im]
    have h2 : 0 ≤ (D + e).im := by
      rw [Complex.add_im, dim]
      have := (abs_le.1 ((Complex.abs_im_le_norm e).trans ne)).1
      nlinarith
    have h3 : (0.413 : ℂ).im = 0 := by norm_num
    have h4 : (0.413 : ℂ).re = 0.413 := by norm_num
    rw [h3, h4, zero_mul, zero_div]
    have h5 := Complex.normSq_nonneg (D + e)
    have : 0 ≤ 0.413 * (D + e).im / Complex.normSq (D + e) := by positivity
    linarith
  · rw [norm_div, div_le_iff₀ (by linarith)]
    have : ‖(0.413 : ℂ)‖ = 0.413 := by norm_num
    rw [this]
    linarith

/-- The drag coefficient at a negative Reynolds number: far from real. -/
theorem cd_neg {r d : ℝ} (hr : 1e-6 ≤ r) (hr2 : r ≤ 1e12) (hd : 0 < d) (hd1 : d ≤ 1e-10) {w : ℂ} (hw : w = (r : ℂ) * (1 + -(d : ℂ) * Complex.I)) {C : ℂ}
    (hC : C = 24 / (-w) * (1 + 0.173 * (-w) ^ (0.657 : ℂ)) + 0.413 / (1 + 16300 * (-w) ^ (-1.09 : ℂ))) :
    C.im < 0 ∧ 1e-6 * ‖C‖ ≤ -C.im ∧ ‖C‖ ≤ 1.01 * (cdA r + cdB r) + 2.43 := by
  have hr0 : 0 < r := by linarith
  have hwim : w.im < 0 := by
    rw [hw, Complex.im_ofReal_mul]
    simp
    positivity
  set z : ℂ := -(d : ℂ) * Complex.I with hz
  have nz : ‖z‖ = d := by rw [hz, norm_mul, norm_neg, Complex.norm_I, Complex.norm_real, norm_of_nonneg hd.le, mul_one]
  have hw1 : (1 + z) ≠ 0 := by
    intro h
    have : z = -1 := by linear_combination h
    rw [this] at nz
    norm_num at nz
    linarith
  obtain ⟨c1, c2, hQ, c3⟩ := cd_terms_pos hr0
  have n1 := cpow_near (z := z) (p := -1) (by linarith) (by norm_num)
  have n2 := cpow_near (z := z) (p := -0.343) (by linarith) (by norm_num [abs_of_neg])
  have n3 := cpow_near (z := z) (p := -1.09) (by linarith) (by norm_num [abs_of_neg])
  rw [show |(-1 : ℝ)| = 1 by norm_num, nz] at n1
  rw [show |(-0.343 : ℝ)| = 0.343 by norm_num [abs_of_neg], nz] at n2
  rw [show |(-1.09 : ℝ)| = 1.09 by norm_num [abs_of_neg], nz] at n3
  have e3 : (1 + z) ^ ((-0.343 : ℝ) : ℂ) = (1 + z)⁻¹ * (1 + z) ^ ((0.657 : ℝ) : ℂ) := by
    rw [← Complex.cpow_neg_one, ← Complex.cpow_add _ _ hw1]
    congr 1
    push_cast
    norm_num
  have e4 : (1 + z) ^ ((-1 : ℝ) : ℂ) = (1 + z)⁻¹ := by
    rw [← Complex.cpow_neg_one]
    congr 1
    push_cast
    rfl
  rw [e4] at n1
  rw [show (0.657 : ℂ) = ((0.657 : ℝ) : ℂ) by push_cast; norm_num, show (-1.09 : ℂ) = ((-1.09 : ℝ) : ℂ) by push_cast; norm_num, cpow_neg_below hwim, cpow_neg_below hwim, hw,
    cpow_mul_real hr0 hw1, cpow_mul_real hr0 hw1] at hC
  obtain ⟨l1, l2⟩ := cd_neg_last (b := cdQ r) (c := cos (π * -1.09)) (s := sin (π * -1.09)) (W := (1 + z) ^ ((-1.09 : ℝ) : ℂ)) hQ sin_109 (cos_sq_add_sin_sq _) (by linarith)
  have s1 := sin_657
  have cs := cos_sq_add_sin_sq (π * 0.657)
  generalize cos (π * 0.657) = co at *
  generalize sin (π * 0.657) = si at *
  generalize ((cos (π * -1.09) : ℝ) : ℂ) + ((sin (π * -1.09) : ℝ) : ℂ) * Complex.I = E2 at *
  have eL : (1 : ℂ) + 16300 * (((r ^ (-1.09 : ℝ) : ℝ) : ℂ) * (1 + z) ^ ((-1.09 : ℝ) : ℂ) * E2) = 1 + (cdQ r : ℂ) * ((1 + z) ^ ((-1.09 : ℝ) : ℂ) * E2) := by
    unfold cdQ
    push_cast
    ring
  rw [eL] at hC
  generalize 0.413 / (1 + (cdQ r : ℂ) * ((1 + z) ^ ((-1.09 : ℝ) : ℂ) * E2)) = L at *
  have hr' : (r : ℂ) ≠ 0 := by exact_mod_cast hr0.ne'
  have eC : C = -(cdA r : ℂ) * (1 + z)⁻¹ - (cdB r : ℂ) * ((1 + z) ^ ((-0.343 : ℝ) : ℂ) * ((co : ℂ) + (si : ℂ) * Complex.I)) + L := by
    rw [hC, e3]
    have eA : (cdA r : ℂ) = 24 / (r : ℂ) := by unfold cdA; push_cast; rfl
    have eB : (cdB r : ℂ) = 24 / (r : ℂ) * (0.173 * ((r ^ (0.657 : ℝ) : ℝ) : ℂ)) := by unfold cdB; push_cast; norm_num
    rw [eA, eB]
    generalize ((r ^ (0.657 : ℝ) : ℝ) : ℂ) = P
    field_simp
    ring
  -- sizes
  have nE : ‖(co : ℂ) + (si : ℂ) * Complex.I‖ = 1 := by rw [Complex.norm_add_mul_I, cs, sqrt_one]
  have imE : ((co : ℂ) + (si : ℂ) * Complex.I).im = si := by simp
  generalize (co : ℂ) + (si : ℂ) * Complex.I = E1 at *
  have i1 := (abs_le.1 ((Complex.abs_im_le_norm _).trans n1)).1
  rw [Complex.sub_im, Complex.one_im, sub_zero] at i1
  have i2 : si - 0.35 * d ≤ ((1 + z) ^ ((-0.343 : ℝ) : ℂ) * E1).im := by
    have h5 : ‖(1 + z) ^ ((-0.343 : ℝ) : ℂ) * E1 - E1‖ ≤ 0.35 * d := by
      rw [show (1 + z) ^ ((-0.343 : ℝ) : ℂ) * E1 - E1 = ((1 + z) ^ ((-0.343 : ℝ) : ℂ) - 1) * E1 by ring, norm_mul, nE, mul_one]
      linarith
    have := (abs_le.1 ((Complex.abs_im_le_norm _).trans h5)).1
    rw [Complex.sub_im, imE] at this
    linarith
  have m1 : ‖(1 + z)⁻¹‖ ≤ 1.001 := by
    have := norm_add_le ((1 + z)⁻¹ - 1) 1
    rw [sub_add_cancel, norm_one] at this
    linarith
  have m2 : ‖(1 + z) ^ ((-0.343 : ℝ) : ℂ) * E1‖ ≤ 1.001 := by
    rw [norm_mul, nE, mul_one]
    have := norm_add_le ((1 + z) ^ ((-0.343 : ℝ) : ℂ) - 1) 1
    rw [sub_add_cancel, norm_one] at this
    linarith
  have imC : C.im = -cdA r * ((1 + z)⁻¹).im - cdB r * ((1 + z) ^ ((-0.343 : ℝ) : ℂ) * E1).im + L.im := by
    rw [eC, Complex.add_im, Complex.sub_im, ← Complex.ofReal_neg, Complex.im_ofReal_mul, Complex.im_ofReal_mul]
  have nC : ‖C‖ ≤ 1.001 * cdA r + 1.001 * cdB r + 2.43 := by
    rw [eC]
    refine (norm_add_le _ _).trans (add_le_add ((norm_sub_le _ _).trans (add_le_add ?_ ?_)) l2)
    · rw [norm_mul, norm_neg, Complex.norm_real, norm_of_nonneg c1.le, mul_comm]
      exact mul_le_mul_of_nonneg_right m1 c1.le
    · rw [norm_mul, Complex.norm_real, norm_of_nonneg c2.le, mul_comm]
      exact mul_le_mul_of_nonneg_right m2 c2.le
  have k1 : cdA r ≤ 1e5 * cdB r := by
    have : cdB r = cdA r * (0.173 * r ^ (0.657 : ℝ)) := by unfold cdB cdA; ring
    have h6 : (1e-4 : ℝ) ≤ r ^ (0.657 : ℝ) := le_trans (show (1e-4 : ℝ) ≤ (1e-6 : ℝ) ^ (0.657 : ℝ) by iv) (rpow_le_rpow (by norm_num) hr (by norm_num))
    rw [this]
    nlinarith
  have k2 : 4e-5 ≤ cdB r := by
    have : cdB r = 24 * 0.173 * r ^ (-0.343 : ℝ) := by
      unfold cdB
      rw [show (-0.343 : ℝ) = 0.657 - 1 by norm_num, rpow_sub_one hr0.ne']
      field_simp
    rw [this]
    have h6 : (1e-5 : ℝ) ≤ r ^ (-0.343 : ℝ) := le_trans (show (1e-5 : ℝ) ≤ (1e12 : ℝ) ^ (-0.343 : ℝ) by iv) (rpow_le_rpow_of_nonpos hr0 hr2 (by norm_num))
    linarith
  have im2 : C.im ≤ -0.66 * cdB r := by
    rw [imC]
    clear * - i1 i2 l1 k1 c1 c2 s1 hd hd1
    have a1 : cdA r * -((1 + z)⁻¹).im ≤ cdA r * (1.001 * 1 * d) := mul_le_mul_of_nonneg_left (by linarith) c1.le
    have a2 : cdB r * (0.68 - 0.35 * d) ≤ cdB r * ((1 + z) ^ ((-0.343 : ℝ) : ℂ) * E1).im := mul_le_mul_of_nonneg_left (by linarith) c2.le
    have a3 : cdA r * d ≤ 1e5 * cdB r * d := mul_le_mul_of_nonneg_right k1 hd.le
    have a4 : cdB r * d ≤ cdB r * 1e-10 := mul_le_mul_of_nonneg_left hd1 c2.le
    linarith
  refine ⟨by linarith, ?_, by linarith⟩
  linarith

/-- The square root of a number in the upper half-plane. -/
theorem sqrt_upper {w : ℂ} (hw : 0 < w.im) : 0 ≤ (w ^ (1 / 2 : ℂ)).re ∧ (w ^ (1 / 2 : ℂ)).re ≤ √‖w‖ ∧ w.im ≤ 2 * √‖w‖ * (w ^ (1 / 2 : ℂ)).im := by
  have e2 : (w ^ (1 / 2 : ℂ)) ^ 2 = w := by simp
  have hre : 0 ≤ (w ^ (1 / 2 : ℂ)).re := by
    have := Complex.cpow_ofReal w (1 / 2)
    rw [show (((1 / 2 : ℝ)) : ℂ) = (1 / 2 : ℂ) by push_cast; rfl] at this
    rw [this]
    have hc : 0 ≤ cos (w.arg * (1 / 2)) := by
      apply cos_nonneg_of_mem_Icc
      constructor
      · linarith [Complex.neg_pi_lt_arg w]
      · linarith [Complex.arg_le_pi w]
    have := rpow_nonneg (norm_nonneg w) (1 / 2)
    rw [Complex.re_ofReal_mul]
    refine mul_nonneg this ?_
    generalize cos (w.arg * (1 / 2)) = a at hc
    generalize sin (w.arg * (1 / 2)) = b
    simpa using hc
  generalize w ^ (1 / 2 : ℂ) = h at e2 hre
  have hi : 2 * h.re * h.im = w.im := by rw [← e2]; simp [sq]; ring
  have hn : h.re ^ 2 + h.im ^ 2 = ‖w‖ := by
    rw [← e2, norm_pow, Complex.sq_norm, Complex.normSq_apply]; ring
  have hle : h.re ≤ √‖w‖ := le_sqrt_of_sq_le (by rw [← hn]; linarith [sq_nonneg h.im])
  refine ⟨hre, hle, ?_⟩
  have him : 0 ≤ h.im := by
    by_contra hc
    push Not at hc
    nlinarith
  rw [← hi]
  nlinarith

end Verif.Flow
