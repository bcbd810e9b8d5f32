import Verif.Lemmas.Rtd

/-!
# Antiderivatives for the open-open dispersion model
-/

namespace Verif.Rtd

open MeasureTheory Set Filter Real Verif.Dist

/-- `exp(-Pe (1-q)²/(4q))`. -/
noncomputable def eP (P q : ℝ) : ℝ := exp (-P / (4 * q) * (1 - q) ^ 2)

noncomputable def uP (P q : ℝ) : ℝ := √P / 2 * (√q - 1 / √q)
noncomputable def vP (P q : ℝ) : ℝ := √P / 2 * (√q + 1 / √q)

/-- Density in reduced time. -/
noncomputable def fP (P q : ℝ) : ℝ := √(P / π) / 2 / √q * eP P q

noncomputable def Gp (P q : ℝ) : ℝ := (erf (uP P q) + exp P * erf (vP P q)) / 2
noncomputable def Gm (P q : ℝ) : ℝ := (erf (uP P q) - exp P * erf (vP P q)) / 2
noncomputable def Hp (P q : ℝ) : ℝ := √(P / π) / 2 * (√q * eP P q)

theorem uP_sq {P q : ℝ} (hP : 0 < P) (hq : 0 < q) : -(uP P q) ^ 2 = -P / (4 * q) * (1 - q) ^ 2 := by
  have h1 : √P ^ 2 = P := Real.sq_sqrt hP.le
  have h2 : √q ^ 2 = q := Real.sq_sqrt hq.le
  have h3 : √q ≠ 0 := (Real.sqrt_pos.2 hq).ne'
  have e : √q - 1 / √q = (q - 1) / √q := by rw [eq_div_iff h3, sub_mul, div_mul_cancel₀ _ h3, ← pow_two, h2]
  rw [uP, e, mul_pow, div_pow, div_pow, h1, h2]
  field_simp
  ring

theorem vP_sq {P q : ℝ} (hP : 0 < P) (hq : 0 < q) : P + -(vP P q) ^ 2 = -P / (4 * q) * (1 - q) ^ 2 := by
  have h1 : √P ^ 2 = P := Real.sq_sqrt hP.le
  have h2 : √q ^ 2 = q := Real.sq_sqrt hq.le
  have h3 : √q ≠ 0 := (Real.sqrt_pos.2 hq).ne'
  have e : √q + 1 / √q = (q + 1) / √q := by rw [eq_div_iff h3, add_mul, div_mul_cancel₀ _ h3, ← pow_two, h2]
  rw [vP, e, mul_pow, div_pow, div_pow, h1, h2]
  field_simp
  ring

theorem inv_sqrt_deriv {q : ℝ} (hq : 0 < q) : HasDerivAt (fun q => 1 / √q) (-(1 / (2 * q * √q))) q := by
  have h2 : √q ^ 2 = q := Real.sq_sqrt hq.le
  have h3 : √q ≠ 0 := (Real.sqrt_pos.2 hq).ne'
  refine ((hasDerivAt_const q (1 : ℝ)).div (hasDerivAt_sqrt hq.ne') h3).congr_deriv ?_
  rw [h2]
  field_simp
  ring

theorem uP_deriv (P : ℝ) {q : ℝ} (hq : 0 < q) : HasDerivAt (uP P) (√P / 4 * ((q + 1) / (q * √q))) q := by
  have h3 : √q ≠ 0 := (Real.sqrt_pos.2 hq).ne'
  refine (((hasDerivAt_sqrt hq.ne').sub (inv_sqrt_deriv hq)).const_mul (√P / 2)).congr_deriv ?_
  field_simp
  ring

theorem vP_deriv (P : ℝ) {q : ℝ} (hq : 0 < q) : HasDerivAt (vP P) (√P / 4 * ((q - 1) / (q * √q))) q := by
  have h3 : √q ≠ 0 := (Real.sqrt_pos.2 hq).ne'
  refine (((hasDerivAt_sqrt hq.ne').add (inv_sqrt_deriv hq)).const_mul (√P / 2)).congr_deriv ?_
  field_simp
  ring

theorem erf_u {P q : ℝ} (hP : 0 < P) (hq : 0 < q) :
    HasDerivAt (fun q => erf (uP P q)) (2 / √π * eP P q * (√P / 4 * ((q + 1) / (q * √q)))) q := by
  have := (erf_hasDerivAt _).comp q (uP_deriv P hq)
  rw [uP_sq hP hq] at this
  exact this

theorem erf_v {P q : ℝ} (hP : 0 < P) (hq : 0 < q) :
    HasDerivAt (fun q => exp P * erf (vP P q)) (2 / √π * eP P q * (√P / 4 * ((q - 1) / (q * √q)))) q := by
  have := ((erf_hasDerivAt _).comp q (vP_deriv P hq)).const_mul (exp P)
  refine this.congr_deriv ?_
  rw [eP, ← vP_sq hP hq, exp_add]
  ring

theorem Gp_deriv {P q : ℝ} (hP : 0 < P) (hq : 0 < q) : HasDerivAt (Gp P) (fP P q) q := by
  have h3 : √q ≠ 0 := (Real.sqrt_pos.2 hq).ne'
  refine (((erf_u hP hq).add (erf_v hP hq)).div_const 2).congr_deriv ?_
  rw [fP, Real.sqrt_div hP.le]
  have : √π ≠ 0 := (Real.sqrt_pos.2 pi_pos).ne'
  field_simp
  ring

theorem Gm_deriv {P q : ℝ} (hP : 0 < P) (hq : 0 < q) : HasDerivAt (Gm P) (fP P q / q) q := by
  have h3 : √q ≠ 0 := (Real.sqrt_pos.2 hq).ne'
  refine (((erf_u hP hq).sub (erf_v hP hq)).div_const 2).congr_deriv ?_
  rw [fP, Real.sqrt_div hP.le]
  have : √π ≠ 0 := (Real.sqrt_pos.2 pi_pos).ne'
  field_simp
  ring

theorem Hp_deriv {P q : ℝ} (hP : 0 < P) (hq : 0 < q) : HasDerivAt (Hp P) (fP P q / 2 - P / 4 * (q * fP P q - fP P q / q)) q := by
  have h2 : √q ^ 2 = q := Real.sq_sqrt hq.le
  have h3 : √q ≠ 0 := (Real.sqrt_pos.2 hq).ne'
  have d1 : HasDerivAt (fun q : ℝ => -P / (4 * q) * (1 - q) ^ 2) (-P / 4 * (1 - 1 / q ^ 2)) q := by
    have a1 : HasDerivAt (fun q : ℝ => 4 * q) 4 q := by simpa using (hasDerivAt_id q).const_mul 4
    have a2 : HasDerivAt (fun q : ℝ => (1 - q) ^ 2) (2 * (1 - q) * -1) q := by
      refine (((hasDerivAt_id q).const_sub 1).pow 2).congr_deriv ?_
      simp
    refine (((hasDerivAt_const q (-P)).div a1 (by positivity)).mul a2).congr_deriv ?_
    simp only [Pi.div_apply]
    field_simp
    ring
  refine (((hasDerivAt_sqrt hq.ne').mul d1.exp).const_mul (√(P / π) / 2)).congr_deriv ?_
  rw [fP]
  show √(P / π) / 2 * (1 / (2 * √q) * eP P q + √q * (eP P q * (-P / 4 * (1 - 1 / q ^ 2)))) = _
  have : √q = q / √q := by rw [eq_div_iff h3, ← pow_two, h2]
  have e : √q * (eP P q * (-P / 4 * (1 - 1 / q ^ 2))) = q / √q * (eP P q * (-P / 4 * (1 - 1 / q ^ 2))) := by rw [← this]
  rw [e]
  field_simp
  ring

theorem sqrt_zero : Tendsto (fun q : ℝ => √q) (nhdsWithin 0 (Ioi 0)) (nhdsWithin 0 (Ioi 0)) := by
  refine tendsto_nhdsWithin_iff.2 ⟨?_, ?_⟩
  · have := Real.continuous_sqrt.tendsto 0
    rw [Real.sqrt_zero] at this
    exact this.mono_left nhdsWithin_le_nhds
  · filter_upwards [self_mem_nhdsWithin] with q hq
    exact Real.sqrt_pos.2 hq

theorem inv_sqrt_zero : Tendsto (fun q : ℝ => 1 / √q) (nhdsWithin 0 (Ioi 0)) atTop := by
  simp_rw [one_div]
  exact tendsto_inv_nhdsGT_zero.comp sqrt_zero

theorem uP_zero {P : ℝ} (hP : 0 < P) : Tendsto (uP P) (nhdsWithin 0 (Ioi 0)) atBot := by
  have h : Tendsto (fun q : ℝ => √q - 1 / √q) (nhdsWithin 0 (Ioi 0)) atBot := by
    have := (sqrt_zero.mono_right nhdsWithin_le_nhds).add_atBot (tendsto_neg_atTop_atBot.comp inv_sqrt_zero)
    exact this
  exact h.const_mul_atBot (by have := Real.sqrt_pos.2 hP; positivity)

theorem vP_zero {P : ℝ} (hP : 0 < P) : Tendsto (vP P) (nhdsWithin 0 (Ioi 0)) atTop := by
  have h : Tendsto (fun q : ℝ => √q + 1 / √q) (nhdsWithin 0 (Ioi 0)) atTop :=
    (sqrt_zero.mono_right nhdsWithin_le_nhds).add_atTop inv_sqrt_zero
  exact h.const_mul_atTop (by have := Real.sqrt_pos.2 hP; positivity)

theorem sqrt_top : Tendsto (fun q : ℝ => √q) atTop atTop := Real.tendsto_sqrt_atTop

theorem inv_sqrt_top : Tendsto (fun q : ℝ => 1 / √q) atTop (nhds 0) := tendsto_const_nhds.div_atTop sqrt_top

theorem uP_top {P : ℝ} (hP : 0 < P) : Tendsto (uP P) atTop atTop := by
  have h : Tendsto (fun q : ℝ => √q - 1 / √q) atTop atTop := by
    have := sqrt_top.atTop_add inv_sqrt_top.neg
    exact this
  exact h.const_mul_atTop (by have := Real.sqrt_pos.2 hP; positivity)

theorem vP_top {P : ℝ} (hP : 0 < P) : Tendsto (vP P) atTop atTop :=
  (sqrt_top.atTop_add inv_sqrt_top).const_mul_atTop (by have := Real.sqrt_pos.2 hP; positivity)

theorem G_zero {P : ℝ} (hP : 0 < P) : Tendsto (Gp P) (nhdsWithin 0 (Ioi 0)) (nhds ((-1 + exp P) / 2)) ∧
    Tendsto (Gm P) (nhdsWithin 0 (Ioi 0)) (nhds ((-1 - exp P) / 2)) := by
  have a := erf_tendsto_atBot.comp (uP_zero hP)
  have b := (erf_tendsto_atTop.comp (vP_zero hP)).const_mul (exp P)
  rw [mul_one] at b
  exact ⟨(a.add b).div_const 2, (a.sub b).div_const 2⟩

theorem G_top {P : ℝ} (hP : 0 < P) : Tendsto (Gp P) atTop (nhds ((1 + exp P) / 2)) ∧ Tendsto (Gm P) atTop (nhds ((1 - exp P) / 2)) := by
  have a := erf_tendsto_atTop.comp (uP_top hP)
  have b := (erf_tendsto_atTop.comp (vP_top hP)).const_mul (exp P)
  rw [mul_one] at b
  exact ⟨(a.add b).div_const 2, (a.sub b).div_const 2⟩

theorem H_zero {P : ℝ} (hP : 0 < P) : Tendsto (Hp P) (nhdsWithin 0 (Ioi 0)) (nhds 0) := by
  have a : Tendsto (fun q : ℝ => √(P / π) / 2 * √q) (nhdsWithin 0 (Ioi 0)) (nhds (√(P / π) / 2 * 0)) :=
    (sqrt_zero.mono_right nhdsWithin_le_nhds).const_mul _
  rw [mul_zero] at a
  refine tendsto_of_tendsto_of_tendsto_of_le_of_le' tendsto_const_nhds a ?_ ?_
  · filter_upwards [self_mem_nhdsWithin] with q hq
    exact mul_nonneg (by positivity) (mul_nonneg (Real.sqrt_nonneg _) (exp_pos _).le)
  · filter_upwards [self_mem_nhdsWithin] with q hq
    have hq : 0 < q := hq
    refine mul_le_mul_of_nonneg_left ?_ (by positivity)
    have : eP P q ≤ 1 := by
      rw [eP, ← uP_sq hP hq]
      exact exp_le_one_iff.2 (by nlinarith [sq_nonneg (uP P q)])
    nlinarith [Real.sqrt_nonneg q]

theorem H_top {P : ℝ} (hP : 0 < P) : Tendsto (Hp P) atTop (nhds 0) := by
  have a : Tendsto (fun q : ℝ => √(P / π) / 2 * exp (P / 2) * (√q * exp (-(P / 4 * q)))) atTop (nhds (√(P / π) / 2 * exp (P / 2) * 0)) := by
    refine Tendsto.const_mul _ ?_
    have b := tendsto_rpow_mul_exp_neg_mul_atTop_nhds_zero (1 / 2) (P / 4) (by positivity)
    refine b.congr fun q => ?_
    rw [Real.sqrt_eq_rpow]
    congr 2
    ring
  rw [mul_zero] at a
  refine tendsto_of_tendsto_of_tendsto_of_le_of_le' tendsto_const_nhds a ?_ ?_
  · filter_upwards with q
    exact mul_nonneg (by positivity) (mul_nonneg (Real.sqrt_nonneg _) (exp_pos _).le)
  · filter_upwards [Ioi_mem_atTop 0] with q hq
    have hq : 0 < q := hq
    rw [Hp, mul_assoc]
    refine mul_le_mul_of_nonneg_left ?_ (by positivity)
    rw [mul_left_comm, ← exp_add, eP]
    refine mul_le_mul_of_nonneg_left (exp_le_exp.2 ?_) (Real.sqrt_nonneg _)
    have : -P / (4 * q) * (1 - q) ^ 2 = -P / (4 * q) + (P / 2 + -(P / 4 * q)) := by
      field_simp
      ring
    rw [this]
    have : -P / (4 * q) ≤ 0 := div_nonpos_of_nonpos_of_nonneg (by linarith) (by positivity)
    linarith

end Verif.Rtd
