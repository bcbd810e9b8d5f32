import Verif.Props.FlowRoots
import Mathlib.Analysis.SpecialFunctions.Trigonometric.Arctan
import Mathlib.Analysis.SpecialFunctions.Complex.Arg
import Mathlib.Analysis.SpecialFunctions.Trigonometric.Bounds

/-! # Helper lemmas: one Newton step of `vt_sphere` at a small complex offset -/

namespace Verif.Flow

open Real

/-- Argument and modulus of `R (1 + i d)`. -/
theorem arg_offset {R d : ℝ} (hR : 0 < R) : (⟨R, R * d⟩ : ℂ).arg = arctan d := by
  rw [Complex.arg_of_re_nonneg (by exact hR.le)]
  have h1 : ‖(⟨R, R * d⟩ : ℂ)‖ = R * √(1 + d ^ 2) := by
    rw [Complex.norm_def, Complex.normSq_mk, show R * R + R * d * (R * d) = R ^ 2 * (1 + d ^ 2) by ring, sqrt_mul (sq_nonneg R), sqrt_sq hR.le]
  rw [h1, arctan_eq_arcsin]
  congr 1
  show R * d / (R * √(1 + d ^ 2)) = _
  rw [mul_div_mul_left _ _ hR.ne']

theorem norm_offset {R d : ℝ} (hR : 0 < R) : ‖(⟨R, R * d⟩ : ℂ)‖ = R * √(1 + d ^ 2) := by
  rw [Complex.norm_def, Complex.normSq_mk, show R * R + R * d * (R * d) = R ^ 2 * (1 + d ^ 2) by ring, sqrt_mul (sq_nonneg R), sqrt_sq hR.le]

/-- A power of `R (1 + i d)` in polar form. -/
theorem cpow_offset {R d p : ℝ} (hR : 0 < R) :
    (⟨R, R * d⟩ : ℂ) ^ (p : ℂ) = ⟨(R * √(1 + d ^ 2)) ^ p * cos (arctan d * p), (R * √(1 + d ^ 2)) ^ p * sin (arctan d * p)⟩ := by
  rw [Complex.cpow_ofReal, arg_offset hR, norm_offset hR]
  generalize cos (arctan d * p) = a
  generalize sin (arctan d * p) = b
  apply Complex.ext <;> simp

/-- A square root with nonnegative real part. -/
theorem sqrt_cone {w : ℂ} (hw : 0 < w.re) {d : ℝ} (h0 : 0 ≤ w.im) (h1 : w.im ≤ d * w.re) :
    0 < (w ^ (1 / 2 : ℂ)).re ∧ 0 ≤ (w ^ (1 / 2 : ℂ)).im ∧ (w ^ (1 / 2 : ℂ)).im ≤ d / 2 * (w ^ (1 / 2 : ℂ)).re ∧
      (w ^ (1 / 2 : ℂ)).re ^ 2 + (w ^ (1 / 2 : ℂ)).im ^ 2 = ‖w‖ := by
  have hw0 : w ≠ 0 := by rintro rfl; simp at hw
  have e2 : (w ^ (1 / 2 : ℂ)) ^ 2 = w := by
    simp
  have hre : 0 ≤ (w ^ (1 / 2 : ℂ)).re := by
    have := Complex.cpow_ofReal w (1 / 2)
    rw [show (((1 / 2 : ℝ)) : ℂ) = (1 / 2 : ℂ) by push_cast; rfl] at this
    rw [this]
    have hc : 0 ≤ cos (w.arg * (1 / 2)) := by
      apply cos_nonneg_of_mem_Icc
      constructor
      · linarith [Complex.neg_pi_lt_arg w]
      · linarith [Complex.arg_le_pi w]
    have := rpow_nonneg (norm_nonneg w) (1 / 2)
    rw [Complex.re_ofReal_mul]
    refine mul_nonneg this ?_
    generalize cos (w.arg * (1 / 2)) = a at hc
    generalize sin (w.arg * (1 / 2)) = b
    simpa using hc
  generalize w ^ (1 / 2 : ℂ) = h at e2 hre
  have hr : h.re ^ 2 - h.im ^ 2 = w.re := by rw [← e2]; simp [sq]
  have hi : 2 * h.re * h.im = w.im := by rw [← e2]; simp [sq]; ring
  have hn : h.re ^ 2 + h.im ^ 2 = ‖w‖ := by
    rw [← e2, norm_pow, Complex.sq_norm, Complex.normSq_apply]; ring
  have hpos : 0 < h.re := by
    rcases hre.lt_or_eq with h | h
    · exact h
    · exfalso; rw [← h] at hr; nlinarith [sq_nonneg (Complex.im (‹ℂ›))]
  have him : 0 ≤ h.im := by
    by_contra hc
    push Not at hc
    nlinarith
  have hd : 0 ≤ d := by
    by_contra hc
    push Not at hc
    nlinarith
  refine ⟨hpos, him, ?_, hn⟩
  have : 2 * h.re * h.im ≤ d * h.re ^ 2 := by nlinarith [mul_nonneg hd (sq_nonneg h.im)]
  have : h.re * (2 * h.im) ≤ h.re * (d * h.re) := by nlinarith
  have := le_of_mul_le_mul_left this hpos
  linarith

theorem cone_aux1 {b x y d : ℝ} (hb : 0 < b) (hx : 1 / 2 ≤ x) (hd : 0 < d) (hy : -(1.09 * d) ≤ y) : -(0.413 * (b * y)) ≤ d * ((1 + b * x) ^ 2 + (b * y) ^ 2) := by
  have h1 : b * -y ≤ b * (1.09 * d) := mul_le_mul_of_nonneg_left (by linarith) hb.le
  have h2 : b * (1 / 2) ≤ b * x := mul_le_mul_of_nonneg_left hx hb.le
  have h3 : b ≤ (1 + b * x) ^ 2 := by nlinarith
  have h4 := mul_le_mul_of_nonneg_left h3 hd.le
  have h5 := mul_nonneg hd.le (sq_nonneg (b * y))
  have h6 := mul_pos hd hb
  nlinarith

theorem cone_aux2 {Q a c d u v : ℝ} (hQ : 23 ≤ Q) (ha : 0 ≤ a) (hc : 0 ≤ c) (hca : c ≤ d * a) (hd : 0 < d) (hu : 0 ≤ u) (hv : 0 ≤ v) (hvd : v ≤ d) :
    Q ≤ Q * (1 + 0.173 * a + 0.173 * d * c) + u ∧ Q * (0.173 * c - d - 0.173 * d * a) + v ≤ 0 ∧
      -(d * (Q * (1 + 0.173 * a + 0.173 * d * c) + u)) ≤ Q * (0.173 * c - d - 0.173 * d * a) + v := by
  have h0 : 0 ≤ Q := by linarith
  have h1 := mul_nonneg hd.le hc
  refine ⟨?_, ?_, ?_⟩
  · have := mul_le_mul_of_nonneg_left (show 1 ≤ 1 + 0.173 * a + 0.173 * d * c by nlinarith) h0
    linarith
  · have := mul_le_mul_of_nonneg_left (show 0.173 * c - d - 0.173 * d * a ≤ -d by nlinarith) h0
    nlinarith
  · have h2 : -(d * (1 + 0.173 * a + 0.173 * d * c)) ≤ 0.173 * c - d - 0.173 * d * a := by nlinarith [mul_nonneg hd.le h1]
    have h3 := mul_le_mul_of_nonneg_left h2 h0
    nlinarith [mul_nonneg hd.le hu]

set_option maxHeartbeats 1000000 in
/-- The drag coefficient at `R (1 + i d)`. -/
theorem cd_cone {R d : ℝ} (hR : 0 < R) (hR1 : R ≤ 1) (hd : 0 < d) (hd1 : d ≤ 1 / 1000) {C : ℂ}
    (hC : C = 24 / (⟨R, R * d⟩ : ℂ) * (1 + 0.173 * (⟨R, R * d⟩ : ℂ) ^ (0.657 : ℂ)) + 0.413 / (1 + 16300 * (⟨R, R * d⟩ : ℂ) ^ (-1.09 : ℂ))) :
    24 / R / (1 + d ^ 2) ≤ C.re ∧ C.im ≤ 0 ∧ -(d * C.re) ≤ C.im ∧ ‖C‖ ≤ 1.191 * (24 / R) := by
  have ht0 : 0 < arctan d := by rw [← arctan_zero]; exact arctan_strictMono hd
  have htd : arctan d ≤ d := by
    have h := le_tan ht0.le (arctan_lt_pi_div_two d)
    rwa [tan_arctan] at h
  have htan : tan (arctan d) = d := tan_arctan d
  have hpi := pi_gt_three
  have hq : 1 ≤ √(1 + d ^ 2) := by rw [one_le_sqrt]; nlinarith
  have hqs : √(1 + d ^ 2) ^ 2 = 1 + d ^ 2 := sq_sqrt (by positivity)
  have ez : ‖(⟨R, R * d⟩ : ℂ)‖ = R * √(1 + d ^ 2) := norm_offset hR
  have e1 := cpow_offset (d := d) (p := 0.657) hR
  have e2 := cpow_offset (d := d) (p := -1.09) hR
  rw [show ((0.657 : ℝ) : ℂ) = (0.657 : ℂ) by push_cast; norm_num] at e1
  rw [show ((-1.09 : ℝ) : ℂ) = (-1.09 : ℂ) by push_cast; norm_num] at e2
  have hA0 : 0 < (R * √(1 + d ^ 2)) ^ (0.657 : ℝ) := by positivity
  have hB0 : 0 < (R * √(1 + d ^ 2)) ^ (-1.09 : ℝ) := by positivity
  have hA1 : (R * √(1 + d ^ 2)) ^ (0.657 : ℝ) ≤ √(1 + d ^ 2) := by
    calc (R * √(1 + d ^ 2)) ^ (0.657 : ℝ) ≤ √(1 + d ^ 2) ^ (0.657 : ℝ) := rpow_le_rpow (by positivity) (by nlinarith) (by norm_num)
      _ ≤ √(1 + d ^ 2) ^ (1 : ℝ) := rpow_le_rpow_of_exponent_le hq (by norm_num)
      _ = _ := rpow_one _
  generalize arctan d = t at ht0 htd htan e1 e2
  -- angles
  have c1 : 0 < cos (t * 0.657) := cos_pos_of_mem_Ioo ⟨by linarith, by linarith⟩
  have s1 : 0 ≤ sin (t * 0.657) := sin_nonneg_of_nonneg_of_le_pi (by linarith) (by linarith)
  have t1 : sin (t * 0.657) ≤ d * cos (t * 0.657) := by
    have : tan (t * 0.657) ≤ tan t := (strictMonoOn_tan.monotoneOn) ⟨by linarith, by linarith⟩ ⟨by linarith, by linarith⟩ (by linarith)
    rw [htan, tan_eq_sin_div_cos, div_le_iff₀ c1] at this
    exact this
  have s2 : sin (t * -1.09) ≤ 0 := sin_nonpos_of_nonpos_of_neg_pi_le (by linarith) (by linarith)
  have t2 : -(1.09 * d) ≤ sin (t * -1.09) := by
    have := sin_le (x := t * 1.09) (by linarith)
    rw [show t * -1.09 = -(t * 1.09) by ring, sin_neg]
    linarith
  have c2 : 1 / 2 ≤ cos (t * -1.09) := by
    have := one_sub_sq_div_two_le_cos (x := t * -1.09)
    nlinarith
  rw [e1, e2] at hC
  have n1 : ‖(⟨(R * √(1 + d ^ 2)) ^ (0.657 : ℝ) * cos (t * 0.657), (R * √(1 + d ^ 2)) ^ (0.657 : ℝ) * sin (t * 0.657)⟩ : ℂ)‖ ≤ √(1 + d ^ 2) := by
    rw [Complex.norm_def, Complex.normSq_mk]
    have : ∀ A : ℝ, A * cos (t * 0.657) * (A * cos (t * 0.657)) + A * sin (t * 0.657) * (A * sin (t * 0.657)) = A ^ 2 := by
      intro A
      linear_combination A ^ 2 * (sin_sq_add_cos_sq (t * 0.657))
    rw [this, sqrt_sq hA0.le]
    exact hA1
  generalize (R * √(1 + d ^ 2)) ^ (0.657 : ℝ) = A at hA0 hA1 hC n1
  generalize (R * √(1 + d ^ 2)) ^ (-1.09 : ℝ) = B at hB0 hC
  generalize cos (t * 0.657) = x1 at c1 t1 hC n1
  generalize sin (t * 0.657) = y1 at s1 t1 hC n1
  generalize cos (t * -1.09) = x2 at c2 hC
  generalize sin (t * -1.09) = y2 at s2 t2 hC
  have hb : 0 < 16300 * B := by positivity
  generalize hbb : 16300 * B = b at hb
  have ew : (1 + 16300 * (⟨B * x2, B * y2⟩ : ℂ)) = ⟨1 + b * x2, b * y2⟩ := by
    subst hbb; apply Complex.ext <;> simp <;> ring
  rw [ew] at hC
  have hbx : 0 < b * x2 := by positivity
  have hN : 0 < (1 + b * x2) ^ 2 + (b * y2) ^ 2 := by positivity
  have e3 : (0.413 : ℂ) / ⟨1 + b * x2, b * y2⟩ = ⟨0.413 * (1 + b * x2) / ((1 + b * x2) ^ 2 + (b * y2) ^ 2), -(0.413 * (b * y2)) / ((1 + b * x2) ^ 2 + (b * y2) ^ 2)⟩ := by
    rw [div_eq_iff (by intro h; have := congrArg Complex.re h; simp at this; linarith)]
    apply Complex.ext <;> simp <;> field_simp <;> ring_nf
  have e4 : (24 : ℂ) / ⟨R, R * d⟩ = ⟨24 / R / (1 + d ^ 2), -(24 / R / (1 + d ^ 2) * d)⟩ := by
    rw [div_eq_iff (by intro h; have := congrArg Complex.re h; simp at this; linarith)]
    apply Complex.ext <;> simp <;> field_simp <;> ring_nf
  have hN1 : ‖(0.413 : ℂ) / ⟨1 + b * x2, b * y2⟩‖ ≤ 0.413 := by
    rw [norm_div]
    have h1 : 1 ≤ ‖(⟨1 + b * x2, b * y2⟩ : ℂ)‖ := le_trans (by show 1 ≤ |1 + b * x2|; rw [abs_of_pos (by linarith)]; linarith) (Complex.abs_re_le_norm _)
    have h2 : ‖(0.413 : ℂ)‖ = 0.413 := by norm_num
    rw [h2]
    exact div_le_self (by norm_num) h1
  have hN2 : ‖(24 : ℂ) / ⟨R, R * d⟩‖ = 24 / R / √(1 + d ^ 2) := by
    rw [norm_div, ez]
    have h2 : ‖(24 : ℂ)‖ = 24 := by norm_num
    rw [h2, div_div]
  have hR24 : 24 ≤ 24 / R := by rw [le_div_iff₀ hR]; linarith
  have hnorm : ‖C‖ ≤ 1.191 * (24 / R) := by
    rw [hC]
    refine (norm_add_le _ _).trans ?_
    rw [norm_mul, hN2]
    have h3 : ‖(1 + 0.173 * (⟨A * x1, A * y1⟩ : ℂ))‖ ≤ 1 + 0.173 * √(1 + d ^ 2) := by
      refine (norm_add_le _ _).trans ?_
      rw [norm_mul]
      have h2 : ‖(0.173 : ℂ)‖ = 0.173 := by norm_num
      rw [h2, norm_one]
      linarith
    have h4 : 24 / R / √(1 + d ^ 2) * (1 + 0.173 * √(1 + d ^ 2)) ≤ 24 / R * 1.173 := by
      rw [div_mul_eq_mul_div, div_le_iff₀ (by linarith), mul_assoc]
      exact mul_le_mul_of_nonneg_left (by linarith) (by linarith)
    have h5 := mul_le_mul_of_nonneg_left h3 (show 0 ≤ 24 / R / √(1 + d ^ 2) by positivity)
    linarith
  have hre : C.re = 24 / R / (1 + d ^ 2) * (1 + 0.173 * A * x1 + 0.173 * A * d * y1) + 0.413 * (1 + b * x2) / ((1 + b * x2) ^ 2 + (b * y2) ^ 2) := by
    rw [hC, e3, e4]
    simp
    ring
  have him : C.im = 24 / R / (1 + d ^ 2) * (0.173 * A * y1 - d - 0.173 * A * d * x1) + -(0.413 * (b * y2)) / ((1 + b * x2) ^ 2 + (b * y2) ^ 2) := by
    rw [hC, e3, e4]
    simp
    ring
  have hQ : 23 ≤ 24 / R / (1 + d ^ 2) := by rw [le_div_iff₀ (by positivity)]; nlinarith
  have h3a : 0 ≤ 0.413 * (1 + b * x2) / ((1 + b * x2) ^ 2 + (b * y2) ^ 2) := by positivity
  have h3b : 0 ≤ -(0.413 * (b * y2)) / ((1 + b * x2) ^ 2 + (b * y2) ^ 2) := div_nonneg (by nlinarith) hN.le
  have h3c : -(0.413 * (b * y2)) / ((1 + b * x2) ^ 2 + (b * y2) ^ 2) ≤ d := by
    rw [div_le_iff₀ hN]
    exact cone_aux1 hb c2 hd t2
  generalize 0.413 * (1 + b * x2) / ((1 + b * x2) ^ 2 + (b * y2) ^ 2) = u at hre h3a
  generalize -(0.413 * (b * y2)) / ((1 + b * x2) ^ 2 + (b * y2) ^ 2) = v at him h3b h3c
  generalize 24 / R / (1 + d ^ 2) = Q at hQ hre him ⊢
  have hAx : 0 ≤ A * x1 := by positivity
  have hAy : 0 ≤ A * y1 := by positivity
  have hAxy : A * y1 ≤ d * (A * x1) := (mul_le_mul_of_nonneg_left t1 hA0.le).trans (le_of_eq (by ring))
  obtain ⟨r1, r2, r3⟩ := cone_aux2 hQ hAx hAy hAxy hd h3a h3b h3c
  have f1 : C.re = Q * (1 + 0.173 * (A * x1) + 0.173 * d * (A * y1)) + u := by rw [hre]; ring
  have f2 : C.im = Q * (0.173 * (A * y1) - d - 0.173 * d * (A * x1)) + v := by rw [him]; ring
  rw [f1, f2]
  exact ⟨r1, r2, r3, hnorm⟩

end Verif.Flow
