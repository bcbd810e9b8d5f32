import Verif.Lemmas.FlowNegative
import Verif.Props.FlowFast

/-!
# Helper lemmas: bounds on the drag coefficient and its logarithmic slope
-/

namespace Verif.Flow

open Real

theorem cdB_eq {R : ℝ} (hR : 0 < R) : cdB R = 24 * 0.173 * R ^ (-0.343 : ℝ) := by
  unfold cdB
  rw [show (-0.343 : ℝ) = 0.657 - 1 by norm_num, rpow_sub_one hR.ne']
  field_simp

/-- Monotonicity of the terms. -/
theorem cd_mono {a b : ℝ} (ha : 0 < a) (hab : a ≤ b) : cdA b ≤ cdA a ∧ cdB b ≤ cdB a ∧ cdQ b ≤ cdQ a ∧ cdG a ≤ cdG b := by
  have hb := ha.trans_le hab
  obtain ⟨-, -, q1, -⟩ := cd_terms_pos ha
  obtain ⟨-, -, q2, -⟩ := cd_terms_pos hb
  have h1 : cdA b ≤ cdA a := div_le_div_of_nonneg_left (by norm_num) ha hab
  have h2 : cdB b ≤ cdB a := by
    rw [cdB_eq ha, cdB_eq hb]
    exact mul_le_mul_of_nonneg_left (rpow_le_rpow_of_nonpos ha hab (by norm_num)) (by norm_num)
  have h3 : cdQ b ≤ cdQ a := mul_le_mul_of_nonneg_left (rpow_le_rpow_of_nonpos ha hab (by norm_num)) (by norm_num)
  exact ⟨h1, h2, h3, div_le_div_of_nonneg_left (by norm_num) (by positivity) (by linarith)⟩

/-- The drag coefficient between two Reynolds numbers. -/
theorem cd_lo {a b R m : ℝ} (ha : 0 < a) (h1 : a ≤ R) (h2 : R ≤ b) (hm : m ≤ cdA b + cdB b + cdG a) : m ≤ cdSphere R := by
  have hR := ha.trans_le h1
  obtain ⟨-, -, -, g1⟩ := cd_mono ha h1
  obtain ⟨g3, g2, -, -⟩ := cd_mono hR h2
  rw [cd_terms]
  linarith

@[inherit_doc cd_lo]
theorem cd_hi {a b R m : ℝ} (ha : 0 < a) (h1 : a ≤ R) (h2 : R ≤ b) (hm : cdA a + cdB a + cdG b ≤ m) : cdSphere R ≤ m := by
  have hR := ha.trans_le h1
  obtain ⟨g1, g2, -, -⟩ := cd_mono ha h1
  obtain ⟨-, -, -, g3⟩ := cd_mono hR h2
  rw [cd_terms]
  linarith

theorem cdG_lt {R : ℝ} (hR : 0 < R) : cdG R ≤ 0.413 := by
  obtain ⟨-, -, q, -⟩ := cd_terms_pos hR
  exact div_le_self (by norm_num) (by linarith)

theorem cd_ge367 {R : ℝ} (hR : 0 < R) : 0.367 ≤ cdSphere R := by
  obtain ⟨hA, hB, hQ, hG⟩ := cd_terms_pos hR
  rcases le_total R 1300 with h | h
  · have h1 := (cd_mono hR h).2.1
    have h2 : 0.354 ≤ cdB 1300 := by rw [cdB_eq (by norm_num)]; iv
    have h3 := (cd_mono hR h).1
    have h4 : 0.018 ≤ cdA 1300 := by unfold cdA; norm_num
    rw [cd_terms]
    linarith
  rcases le_total R 2050 with h' | h'
  · exact cd_lo (by norm_num) h h' (by rw [cdB_eq (by norm_num)]; unfold cdA cdG cdQ; iv)
  clear h; rename' h' => h
  rcases le_total R 2600 with h' | h'
  · exact cd_lo (by norm_num) h h' (by rw [cdB_eq (by norm_num)]; unfold cdA cdG cdQ; iv)
  clear h; rename' h' => h
  rcases le_total R 3100 with h' | h'
  · exact cd_lo (by norm_num) h h' (by rw [cdB_eq (by norm_num)]; unfold cdA cdG cdQ; iv)
  clear h; rename' h' => h
  rcases le_total R 3700 with h' | h'
  · exact cd_lo (by norm_num) h h' (by rw [cdB_eq (by norm_num)]; unfold cdA cdG cdQ; iv)
  clear h; rename' h' => h
  rcases le_total R 4500 with h' | h'
  · exact cd_lo (by norm_num) h h' (by rw [cdB_eq (by norm_num)]; unfold cdA cdG cdQ; iv)
  clear h; rename' h' => h
  rcases le_total R 5800 with h' | h'
  · exact cd_lo (by norm_num) h h' (by rw [cdB_eq (by norm_num)]; unfold cdA cdG cdQ; iv)
  clear h; rename' h' => h
  rcases le_total R 8300 with h' | h'
  · exact cd_lo (by norm_num) h h' (by rw [cdB_eq (by norm_num)]; unfold cdA cdG cdQ; iv)
  clear h; rename' h' => h
  rcases le_total R 16000 with h' | h'
  · exact cd_lo (by norm_num) h h' (by rw [cdB_eq (by norm_num)]; unfold cdA cdG cdQ; iv)
  clear h; rename' h' => h
  rcases le_total R 80000 with h' | h'
  · exact cd_lo (by norm_num) h h' (by rw [cdB_eq (by norm_num)]; unfold cdA cdG cdQ; iv)
  clear h; rename' h' => h
  have h1 := (cd_mono (by norm_num) h).2.2.2
  have h2 : 0.367 ≤ cdG 80000 := by unfold cdG cdQ; iv
  rw [cd_terms]
  linarith

theorem cd_le505 {R : ℝ} (h : 3000 ≤ R) : cdSphere R ≤ 0.505 := by
  have hR : 0 < R := by linarith
  rcases le_total R 9000 with h' | h'
  · exact cd_hi (by norm_num) h h' (by rw [cdB_eq (by norm_num)]; unfold cdA cdG cdQ; iv)
  clear h; rename' h' => h
  rcases le_total R 22000 with h' | h'
  · exact cd_hi (by norm_num) h h' (by rw [cdB_eq (by norm_num)]; unfold cdA cdG cdQ; iv)
  clear h; rename' h' => h
  rcases le_total R 50000 with h' | h'
  · exact cd_hi (by norm_num) h h' (by rw [cdB_eq (by norm_num)]; unfold cdA cdG cdQ; iv)
  clear h; rename' h' => h
  rcases le_total R 200000 with h' | h'
  · exact cd_hi (by norm_num) h h' (by rw [cdB_eq (by norm_num)]; unfold cdA cdG cdQ; iv)
  clear h; rename' h' => h
  obtain ⟨h1, h2, -, -⟩ := cd_mono (by norm_num) h
  have h3 := cdG_lt hR
  have h4 : cdA 200000 + cdB 200000 ≤ 0.09 := by rw [cdB_eq (by norm_num)]; unfold cdA; iv
  rw [cd_terms]
  linarith

/-- `q/(1+q)` -/
theorem cd_frac {R : ℝ} (hR : 0 < R) : 0 < cdQ R / (1 + cdQ R) ∧ cdQ R / (1 + cdQ R) ≤ 1 := by
  obtain ⟨-, -, q, -⟩ := cd_terms_pos hR
  exact ⟨by positivity, by rw [div_le_one (by positivity)]; linarith⟩

theorem cdAB {R : ℝ} : cdB R = cdA R * (0.173 * R ^ (0.657 : ℝ)) := by unfold cdB cdA; ring

/-- Up to a Reynolds number of 100 the slope is large, ... -/
theorem cdS_lo100 {R : ℝ} (hR : 0 < R) (h : R ≤ 100) : 0.46 * cdSphere R ≤ cdS R := by
  obtain ⟨hA, hB, hQ, hG⟩ := cd_terms_pos hR
  obtain ⟨f0, f1⟩ := cd_frac hR
  have h1 : R ^ (0.657 : ℝ) ≤ 20.62 := le_trans (rpow_le_rpow hR.le h (by norm_num)) (by iv)
  have h2 : cdB R ≤ cdA R * (0.173 * 20.62) := by rw [cdAB]; exact mul_le_mul_of_nonneg_left (by linarith) hA.le
  have h3 := (cd_mono hR h).2.2.2
  have h4 := (cd_mono hR h).2.1
  have h5 : cdG 100 ≤ 0.0039 := by unfold cdG cdQ; iv
  have h6 : 0.85 ≤ cdB 100 := by rw [cdB_eq (by norm_num)]; iv
  have h7 : cdG R * (cdQ R / (1 + cdQ R)) ≤ cdG R := mul_le_of_le_one_right hG.le f1
  unfold cdS
  rw [cd_terms]
  linarith

/-- ... from 60 on it is limited, ... -/
theorem cdS_hi60 {R : ℝ} (h : 60 ≤ R) : cdS R ≤ 0.6 * cdSphere R := by
  have hR : 0 < R := by linarith
  obtain ⟨hA, hB, hQ, hG⟩ := cd_terms_pos hR
  obtain ⟨f0, f1⟩ := cd_frac hR
  have h1 : 14 ≤ R ^ (0.657 : ℝ) := le_trans (by iv) (rpow_le_rpow (by norm_num) h (by norm_num))
  have h2 : cdA R * (0.173 * 14) ≤ cdB R := by rw [cdAB]; exact mul_le_mul_of_nonneg_left (by linarith) hA.le
  have h7 : 0 ≤ cdG R * (cdQ R / (1 + cdQ R)) := by positivity
  unfold cdS
  rw [cd_terms]
  linarith

/-- ... more so from 100 on, ... -/
theorem cdS_hi100 {R : ℝ} (h : 100 ≤ R) : cdS R ≤ 0.5 * cdSphere R := by
  have hR : 0 < R := by linarith
  obtain ⟨hA, hB, hQ, hG⟩ := cd_terms_pos hR
  obtain ⟨f0, f1⟩ := cd_frac hR
  have h1 : 20.5 ≤ R ^ (0.657 : ℝ) := le_trans (by iv) (rpow_le_rpow (by norm_num) h (by norm_num))
  have h2 : cdA R * (0.173 * 20.5) ≤ cdB R := by rw [cdAB]; exact mul_le_mul_of_nonneg_left (by linarith) hA.le
  have h7 : 0 ≤ cdG R * (cdQ R / (1 + cdQ R)) := by positivity
  unfold cdS
  rw [cd_terms]
  linarith

/-- ... up to 3000 it is not negative, ... -/
theorem cdS_3000 {R : ℝ} (hR : 0 < R) (h : R ≤ 3000) : 0 ≤ cdS R := by
  obtain ⟨hA, hB, hQ, hG⟩ := cd_terms_pos hR
  obtain ⟨g1, g2, g3, g4⟩ := cd_mono hR h
  have h6 : 0.266 ≤ cdB 3000 := by rw [cdB_eq (by norm_num)]; iv
  have h5 : 0.007 ≤ cdA 3000 := by unfold cdA; norm_num
  have h3 : 2.63 ≤ cdQ 3000 := by unfold cdQ; iv
  have e : cdG R * (cdQ R / (1 + cdQ R)) = 0.413 * (cdQ R / (1 + cdQ R) ^ 2) := by unfold cdG; field_simp
  have h4 : cdQ R / (1 + cdQ R) ^ 2 ≤ 0.2 := by
    rw [div_le_iff₀ (by positivity)]
    have := g3
    nlinarith
  unfold cdS
  rw [mul_assoc, e]
  linarith

/-- ... and it is never far below zero. -/
theorem cdS_lo {R : ℝ} (hR : 0 < R) : -0.15 * cdSphere R ≤ cdS R := by
  obtain ⟨hA, hB, hQ, hG⟩ := cd_terms_pos hR
  -- in terms of `q`
  have e1 : cdB R = 24 * 0.173 * (cdQ R / 16300) ^ (0.343 / 1.09 : ℝ) := by
    rw [cdB_eq hR, show cdQ R / 16300 = R ^ (-1.09 : ℝ) by unfold cdQ; field_simp, ← rpow_mul hR.le]
    norm_num
  have e2 : (cdQ R / 16300) ^ (0.343 / 1.09 : ℝ) = cdQ R ^ (0.343 / 1.09 : ℝ) / 16300 ^ (0.343 / 1.09 : ℝ) := div_rpow hQ.le (by norm_num) _
  have e3 : (16300 : ℝ) ^ (0.343 / 1.09 : ℝ) ≤ 21.2 := by iv
  have e4 : 0 < (16300 : ℝ) ^ (0.343 / 1.09 : ℝ) := by positivity
  have hp := rpow_pos_of_pos hQ (0.343 / 1.09 : ℝ)
  have h1 : 0.195 * cdQ R ^ (0.343 / 1.09 : ℝ) ≤ cdB R := by
    rw [e1, e2, mul_div_assoc', le_div_iff₀ e4]
    have : cdQ R ^ (0.343 / 1.09 : ℝ) * 16300 ^ (0.343 / 1.09 : ℝ) ≤ cdQ R ^ (0.343 / 1.09 : ℝ) * 21.2 := mul_le_mul_of_nonneg_left e3 hp.le
    linarith
  have eG : cdG R = 0.413 / (1 + cdQ R) := rfl
  have key : 1.09 * 0.413 * cdQ R ≤ 0.493 * cdB R * (1 + cdQ R) ^ 2 + 0.15 * 0.413 * (1 + cdQ R) := by
    generalize cdQ R = q at *
    generalize cdB R = B at *
    have hq2 : 0 < (1 + q) ^ 2 := by positivity
    rcases le_total 1 q with h | h
    · have h2 : 1 ≤ q ^ (0.343 / 1.09 : ℝ) := one_le_rpow h (by norm_num)
      have h3 : 0.195 * (1 + q) ^ 2 ≤ B * (1 + q) ^ 2 := mul_le_mul_of_nonneg_right (by linarith) hq2.le
      nlinarith [sq_nonneg (q - 1)]
    · have h2 : q ^ (1 / 3 : ℝ) ≤ q ^ (0.343 / 1.09 : ℝ) := rpow_le_rpow_of_exponent_ge hQ h (by norm_num)
      have h4 : (q ^ (1 / 3 : ℝ)) ^ 3 = q := by rw [← rpow_natCast, ← rpow_mul hQ.le]; norm_num
      have h5 := rpow_pos_of_pos hQ (1 / 3 : ℝ)
      have h3 : 0.195 * q ^ (1 / 3 : ℝ) * (1 + q) ^ 2 ≤ B * (1 + q) ^ 2 := mul_le_mul_of_nonneg_right (by linarith) hq2.le
      generalize q ^ (1 / 3 : ℝ) = t at *
      subst h4
      have ht1 : t ≤ 1 := by
        by_contra hc
        push Not at hc
        have := one_lt_pow₀ hc (three_ne_zero)
        linarith
      have hpoly : 1.09 * 0.413 * t ^ 3 ≤ 0.493 * (0.195 * t * (1 + t ^ 3) ^ 2) + 0.15 * 0.413 * (1 + t ^ 3) := by
        nlinarith [sq_nonneg (t ^ 2 - 0.75), sq_nonneg (t - 0.85), mul_nonneg h5.le (sq_nonneg (t - 0.85)), mul_nonneg h5.le (sq_nonneg (t ^ 2 - 0.75)), mul_nonneg h5.le (sq_nonneg (t ^ 3 - 0.63)), pow_pos h5 2, pow_pos h5 3]
      linarith
  have e5 : cdG R * (cdQ R / (1 + cdQ R)) = 0.413 * cdQ R / (1 + cdQ R) ^ 2 := by rw [eG]; field_simp
  have h6 : 1.09 * (cdG R * (cdQ R / (1 + cdQ R))) ≤ 0.493 * cdB R + 0.15 * cdG R := by
    rw [e5, eG]
    have : 0 < 1 + cdQ R := by positivity
    rw [mul_div_assoc', div_le_iff₀ (by positivity)]
    have e6 : (0.493 * cdB R + 0.15 * (0.413 / (1 + cdQ R))) * (1 + cdQ R) ^ 2 = 0.493 * cdB R * (1 + cdQ R) ^ 2 + 0.15 * 0.413 * (1 + cdQ R) := by field_simp
    rw [e6]
    linarith
  unfold cdS
  rw [cd_terms]
  linarith

/-- The slope in logarithmic form. -/
theorem cd_log_deriv {R p : ℝ} (hR : 0 < R) : HasDerivAt (fun R => log (cdSphere R) + p * log R) ((p * cdSphere R - cdS R) / (cdSphere R * R)) R := by
  have hc : 0 < cdSphere R := lt_of_lt_of_le (by norm_num) (cd_ge367 hR)
  have h1 := (cdSphere_deriv hR).log hc.ne'
  have h2 := (hasDerivAt_log hR.ne').const_mul p
  refine (h1.fun_add h2).congr_deriv ?_
  field_simp
  ring

theorem cd_log_mono {a b p : ℝ} (ha : 0 < a) (hab : a ≤ b) (h : ∀ R, a ≤ R → R ≤ b → cdS R ≤ p * cdSphere R) :
    log (cdSphere a) + p * log a ≤ log (cdSphere b) + p * log b := by
  have hm : MonotoneOn (fun R => log (cdSphere R) + p * log R) (Set.Icc a b) := by
    apply monotoneOn_of_deriv_nonneg (convex_Icc a b)
    · exact fun R hR => (cd_log_deriv (ha.trans_le hR.1)).continuousAt.continuousWithinAt
    · rw [interior_Icc]
      exact fun R hR => (cd_log_deriv (ha.trans hR.1)).differentiableAt.differentiableWithinAt
    · rw [interior_Icc]
      intro R hR
      have hR0 := ha.trans hR.1
      have hc : 0 < cdSphere R := lt_of_lt_of_le (by norm_num) (cd_ge367 hR0)
      rw [(cd_log_deriv hR0).deriv]
      exact div_nonneg (by linarith [h R hR.1.le hR.2.le]) (by positivity)
  exact hm ⟨le_rfl, hab⟩ ⟨hab, le_rfl⟩ hab

theorem cd_log_anti {a b p : ℝ} (ha : 0 < a) (hab : a ≤ b) (h : ∀ R, a ≤ R → R ≤ b → p * cdSphere R ≤ cdS R) :
    log (cdSphere b) + p * log b ≤ log (cdSphere a) + p * log a := by
  have hm : AntitoneOn (fun R => log (cdSphere R) + p * log R) (Set.Icc a b) := by
    apply antitoneOn_of_deriv_nonpos (convex_Icc a b)
    · exact fun R hR => (cd_log_deriv (ha.trans_le hR.1)).continuousAt.continuousWithinAt
    · rw [interior_Icc]
      exact fun R hR => (cd_log_deriv (ha.trans hR.1)).differentiableAt.differentiableWithinAt
    · rw [interior_Icc]
      intro R hR
      have hR0 := ha.trans hR.1
      have hc : 0 < cdSphere R := lt_of_lt_of_le (by norm_num) (cd_ge367 hR0)
      rw [(cd_log_deriv hR0).deriv]
      exact div_nonpos_of_nonpos_of_nonneg (by linarith [h R hR.1.le hR.2.le]) (by positivity)
  exact hm ⟨le_rfl, hab⟩ ⟨hab, le_rfl⟩ hab

end Verif.Flow
