import Verif.Lemmas.FlowAccuracy

/-!
# Helper lemmas: first-order expansion of the drag balance of `vt_sphere`
-/

namespace Verif.Flow

open Real

theorem cpow_lin {z : ℂ} {p : ℝ} (hz : ‖z‖ ≤ 1e-4) (hp : |p| ≤ 2) : ‖(1 + z) ^ (p : ℂ) - 1 - p * z‖ ≤ 6 * ‖z‖ ^ 2 := by
  have h0 := norm_nonneg z
  have h1 : ‖Complex.log (1 + z) - z‖ ≤ 0.6 * ‖z‖ ^ 2 := by
    refine (Complex.norm_log_one_add_sub_self_le (by linarith)).trans ?_
    have h2 : (1 - ‖z‖)⁻¹ ≤ 1.1 := by
      rw [inv_le_comm₀ (by linarith) (by norm_num)]
      norm_num
      linarith
    have h3 : ‖z‖ ^ 2 * (1 - ‖z‖)⁻¹ ≤ ‖z‖ ^ 2 * 1.1 := mul_le_mul_of_nonneg_left h2 (by positivity)
    linarith [sq_nonneg ‖z‖]
  have hne : (1 + z) ≠ 0 := by
    intro h
    have : z = -1 := by linear_combination h
    rw [this] at hz
    norm_num at hz
  rw [Complex.cpow_def_of_ne_zero hne]
  have h4 : ‖Complex.log (1 + z)‖ ≤ 1.001 * ‖z‖ := by
    have := norm_add_le (Complex.log (1 + z) - z) z
    rw [sub_add_cancel] at this
    nlinarith
  have h5 : ‖Complex.log (1 + z) * (p : ℂ)‖ ≤ 2.002 * ‖z‖ := by
    rw [norm_mul, Complex.norm_real, norm_eq_abs]
    have := mul_le_mul h4 hp (abs_nonneg p) (by positivity)
    linarith
  have h6 := Complex.norm_exp_sub_one_sub_id_le (h5.trans (by linarith))
  have h7 : ‖(Complex.log (1 + z) - z) * (p : ℂ)‖ ≤ 0.6 * ‖z‖ ^ 2 * 2 := by
    rw [norm_mul, Complex.norm_real, norm_eq_abs]
    exact mul_le_mul h1 hp (abs_nonneg p) (by positivity)
  have h8 : ‖Complex.log (1 + z) * (p : ℂ)‖ ^ 2 ≤ (2.002 * ‖z‖) ^ 2 := pow_le_pow_left₀ (norm_nonneg _) h5 2
  have e : Complex.exp (Complex.log (1 + z) * p) - 1 - p * z =
      (Complex.exp (Complex.log (1 + z) * p) - 1 - Complex.log (1 + z) * p) + (Complex.log (1 + z) - z) * p := by ring
  rw [e]
  refine (norm_add_le _ _).trans ?_
  nlinarith [sq_nonneg ‖z‖]

/-- Terms of the drag coefficient. -/
noncomputable def cdA (R : ℝ) : ℝ := 24 / R
@[inherit_doc cdA] noncomputable def cdB (R : ℝ) : ℝ := 24 / R * (0.173 * R ^ (0.657 : ℝ))
@[inherit_doc cdA] noncomputable def cdQ (R : ℝ) : ℝ := 16300 * R ^ (-1.09 : ℝ)
@[inherit_doc cdA] noncomputable def cdG (R : ℝ) : ℝ := 0.413 / (1 + cdQ R)

/-- `-R cd'(R)`. -/
noncomputable def cdS (R : ℝ) : ℝ := cdA R + 0.343 * cdB R - 1.09 * cdG R * (cdQ R / (1 + cdQ R))

theorem cd_terms (R : ℝ) : cdSphere R = cdA R + cdB R + cdG R := by
  unfold cdSphere cdA cdB cdG cdQ
  ring

theorem cd_terms_pos {R : ℝ} (hR : 0 < R) : 0 < cdA R ∧ 0 < cdB R ∧ 0 < cdQ R ∧ 0 < cdG R := by
  have p1 := rpow_pos_of_pos hR (0.657 : ℝ)
  have p2 := rpow_pos_of_pos hR (-1.09 : ℝ)
  refine ⟨by unfold cdA; positivity, by unfold cdB; positivity, by unfold cdQ; positivity, by unfold cdG cdQ; positivity⟩

theorem cdS_bounds {R : ℝ} (hR : 0 < R) : |cdS R| ≤ 1.09 * cdSphere R ∧ cdS R ≤ cdSphere R := by
  obtain ⟨h1, h2, h3, h4⟩ := cd_terms_pos hR
  have h5 : 0 < cdQ R / (1 + cdQ R) := by positivity
  have h6 : cdQ R / (1 + cdQ R) ≤ 1 := by rw [div_le_one (by positivity)]; linarith
  rw [cd_terms]
  unfold cdS
  have h7 : cdG R * (cdQ R / (1 + cdQ R)) ≤ cdG R := mul_le_of_le_one_right h4.le h6
  have h8 : 0 < cdG R * (cdQ R / (1 + cdQ R)) := by positivity
  refine ⟨abs_le.2 ⟨?_, ?_⟩, ?_⟩ <;> linarith

/-- The drag coefficient at a slightly complex Reynolds number, to first order. -/
theorem cd_lin {R : ℝ} {z : ℂ} (hR : 0 < R) (hz : ‖z‖ ≤ 1e-5) :
    ‖24 / ((R : ℂ) * (1 + z)) * (1 + 0.173 * ((R : ℂ) * (1 + z)) ^ (0.657 : ℂ)) + 0.413 / (1 + 16300 * ((R : ℂ) * (1 + z)) ^ (-1.09 : ℂ)) - (cdSphere R : ℂ) + (cdS R : ℂ) * z‖ ≤
      14 * ‖z‖ ^ 2 * cdSphere R := by
  have hw : (1 + z) ≠ 0 := by
    intro h
    have : z = -1 := by linear_combination h
    rw [this] at hz
    norm_num at hz
  have hR' : (R : ℂ) ≠ 0 := by exact_mod_cast hR.ne'
  have hz0 := norm_nonneg z
  obtain ⟨c1, c2, hQ, c3⟩ := cd_terms_pos hR
  have e1 := cpow_mul_real hR hw 0.657
  have e2 := cpow_mul_real hR hw (-1.09)
  have n1 := cpow_lin (z := z) (p := -1) (by linarith) (by norm_num)
  have n2 := cpow_lin (z := z) (p := -0.343) (by linarith) (by norm_num [abs_of_neg])
  have n3 := cpow_lin (z := z) (p := -1.09) (by linarith) (by norm_num [abs_of_neg])
  have m3 := cpow_near (z := z) (p := -1.09) (by linarith) (by norm_num [abs_of_neg])
  rw [show |(-1.09 : ℝ)| = 1.09 by norm_num [abs_of_neg]] at m3
  have e3 : (1 + z) ^ ((-0.343 : ℝ) : ℂ) = (1 + z)⁻¹ * (1 + z) ^ ((0.657 : ℝ) : ℂ) := by
    rw [← Complex.cpow_neg_one, ← Complex.cpow_add _ _ hw]
    congr 1
    push_cast
    norm_num
  have e4 : ∀ t : ℂ, (1 + t) ^ ((-1 : ℝ) : ℂ) = (1 + t)⁻¹ := fun t => by
    rw [← Complex.cpow_neg_one]
    congr 1
    push_cast
    rfl
  rw [e4] at n1
  rw [show (0.657 : ℂ) = ((0.657 : ℝ) : ℂ) by push_cast; norm_num, show (-1.09 : ℂ) = ((-1.09 : ℝ) : ℂ) by push_cast; norm_num, e1, e2]
  rw [e3] at n2
  generalize hW1 : (1 + z) ^ ((0.657 : ℝ) : ℂ) = W1 at *
  generalize hW2 : (1 + z) ^ ((-1.09 : ℝ) : ℂ) = W2 at *
  have hq1 : (1 + (cdQ R : ℂ)) ≠ 0 := by
    have : ((1 + cdQ R : ℝ) : ℂ) ≠ 0 := by exact_mod_cast (show (1 + cdQ R : ℝ) ≠ 0 by linarith)
    simpa using this
  -- the last term
  set f : ℝ := cdQ R / (1 + cdQ R) with hf
  have hf0 : 0 < f := by positivity
  have hf1 : f ≤ 1 := by rw [hf, div_le_one (by positivity)]; linarith
  have hfC : (f : ℂ) = (cdQ R : ℂ) / (1 + (cdQ R : ℂ)) := by rw [hf]; push_cast; rfl
  have ht : ‖(f : ℂ) * (W2 - 1)‖ ≤ 1.1 * ‖z‖ := by
    rw [norm_mul, Complex.norm_real, norm_of_nonneg hf0.le]
    have := mul_le_mul hf1 m3 (norm_nonneg _) (by norm_num)
    linarith
  have n4 := cpow_lin (z := (f : ℂ) * (W2 - 1)) (p := -1) (by linarith) (by norm_num)
  rw [e4] at n4
  have n5 : ‖(1 + (f : ℂ) * (W2 - 1))⁻¹ - 1 - ((-1 : ℝ) : ℂ) * ((f : ℂ) * (W2 - 1))‖ ≤ 7.3 * ‖z‖ ^ 2 := by
    refine n4.trans ?_
    have := pow_le_pow_left₀ (norm_nonneg _) ht 2
    nlinarith [sq_nonneg ‖z‖]
  have hne : 1 + (f : ℂ) * (W2 - 1) ≠ 0 := by
    intro h
    have : (f : ℂ) * (W2 - 1) = -1 := by linear_combination h
    rw [this] at ht
    norm_num at ht
    linarith
  have eD : 1 + 16300 * (((R ^ (-1.09 : ℝ) : ℝ) : ℂ) * W2) = (1 + (cdQ R : ℂ)) * (1 + (f : ℂ) * (W2 - 1)) := by
    rw [hfC]
    unfold cdQ at hq1 ⊢
    push_cast at hq1 ⊢
    field_simp
    ring
  have eG : (cdG R : ℂ) = 0.413 / (1 + (cdQ R : ℂ)) := by unfold cdG; push_cast; norm_num
  have e5 : 24 / ((R : ℂ) * (1 + z)) * (1 + 0.173 * (((R ^ (0.657 : ℝ) : ℝ) : ℂ) * W1)) + 0.413 / (1 + 16300 * (((R ^ (-1.09 : ℝ) : ℝ) : ℂ) * W2)) - (cdSphere R : ℂ) + (cdS R : ℂ) * z =
      (cdA R : ℂ) * ((1 + z)⁻¹ - 1 - ((-1 : ℝ) : ℂ) * z) + (cdB R : ℂ) * ((1 + z)⁻¹ * W1 - 1 - ((-0.343 : ℝ) : ℂ) * z) +
        (cdG R : ℂ) * ((1 + (f : ℂ) * (W2 - 1))⁻¹ - 1 - ((-1 : ℝ) : ℂ) * ((f : ℂ) * (W2 - 1))) + (-(cdG R : ℂ) * (f : ℂ)) * (W2 - 1 - ((-1.09 : ℝ) : ℂ) * z) := by
    rw [eD, cd_terms]
    have eS : (cdS R : ℂ) = (cdA R : ℂ) + 0.343 * (cdB R : ℂ) - 1.09 * (cdG R : ℂ) * (f : ℂ) := by
      unfold cdS
      rw [hf]
      push_cast
      norm_num
    rw [eS]
    have eA : (cdA R : ℂ) = 24 / (R : ℂ) := by unfold cdA; push_cast; rfl
    have eB : (cdB R : ℂ) = 24 / (R : ℂ) * (0.173 * ((R ^ (0.657 : ℝ) : ℝ) : ℂ)) := by unfold cdB; push_cast; norm_num
    have eL : (0.413 : ℂ) / ((1 + (cdQ R : ℂ)) * (1 + (f : ℂ) * (W2 - 1))) = (cdG R : ℂ) * (1 + (f : ℂ) * (W2 - 1))⁻¹ := by
      rw [eG]
      field_simp
    rw [eL]
    push_cast
    rw [eA, eB]
    generalize (1 + (f : ℂ) * (W2 - 1))⁻¹ = V
    generalize ((R ^ (0.657 : ℝ) : ℝ) : ℂ) = P
    field_simp
    ring
  rw [e5]
  have k1 : ‖(cdA R : ℂ) * ((1 + z)⁻¹ - 1 - ((-1 : ℝ) : ℂ) * z)‖ ≤ cdA R * (6 * ‖z‖ ^ 2) := by
    rw [norm_mul, Complex.norm_real, norm_of_nonneg c1.le]
    exact mul_le_mul_of_nonneg_left n1 c1.le
  have k2 : ‖(cdB R : ℂ) * ((1 + z)⁻¹ * W1 - 1 - ((-0.343 : ℝ) : ℂ) * z)‖ ≤ cdB R * (6 * ‖z‖ ^ 2) := by
    rw [norm_mul, Complex.norm_real, norm_of_nonneg c2.le]
    exact mul_le_mul_of_nonneg_left n2 c2.le
  have k3 : ‖(cdG R : ℂ) * ((1 + (f : ℂ) * (W2 - 1))⁻¹ - 1 - ((-1 : ℝ) : ℂ) * ((f : ℂ) * (W2 - 1)))‖ ≤ cdG R * (7.3 * ‖z‖ ^ 2) := by
    rw [norm_mul, Complex.norm_real, norm_of_nonneg c3.le]
    exact mul_le_mul_of_nonneg_left n5 c3.le
  have k4 : ‖(-(cdG R : ℂ) * (f : ℂ)) * (W2 - 1 - ((-1.09 : ℝ) : ℂ) * z)‖ ≤ cdG R * (6 * ‖z‖ ^ 2) := by
    rw [norm_mul, norm_mul, norm_neg, Complex.norm_real, norm_of_nonneg c3.le, Complex.norm_real, norm_of_nonneg hf0.le, mul_assoc]
    refine mul_le_mul_of_nonneg_left ?_ c3.le
    have := mul_le_mul hf1 n3 (norm_nonneg _) (by norm_num)
    linarith
  refine (norm_add_le _ _).trans ((add_le_add ((norm_add_le _ _).trans (add_le_add ((norm_add_le _ _).trans (add_le_add k1 k2)) k3)) k4).trans ?_)
  rw [cd_terms]
  clear * - c1 c2 c3
  have q := sq_nonneg ‖z‖
  generalize ‖z‖ ^ 2 = Z at *
  nlinarith [mul_nonneg q c1.le, mul_nonneg q c2.le, mul_nonneg q c3.le]

/-- The square root in the drag balance at a slightly complex velocity, to first order. -/
theorem root_lin {K c s : ℝ} {C z : ℂ} (hK : 0 < K) (hc : 0 < c) (hz : ‖z‖ ≤ 1e-5) (hs : |s| ≤ 1.09 * c) (hC : ‖C - c + s * z‖ ≤ 14 * ‖z‖ ^ 2 * c) :
    ‖((K : ℂ) / C) ^ (1 / 2 : ℂ) - ((√(K / c) : ℝ) : ℂ) * (1 + ((s / (2 * c) : ℝ) : ℂ) * z)‖ ≤ 17 * ‖z‖ ^ 2 * √(K / c) := by
  have hz0 := norm_nonneg z
  have hc' : (c : ℂ) ≠ 0 := by exact_mod_cast hc.ne'
  -- `C = c (1 + t)`
  obtain ⟨t, ht⟩ : ∃ t : ℂ, C = c * (1 + t) := ⟨C / c - 1, by field_simp; ring⟩
  have h1 : ‖t + ((s / c : ℝ) : ℂ) * z‖ ≤ 14 * ‖z‖ ^ 2 := by
    have e : C - c + s * z = (c : ℂ) * (t + ((s / c : ℝ) : ℂ) * z) := by rw [ht]; push_cast; field_simp; ring
    rw [e, norm_mul, Complex.norm_real, norm_of_nonneg hc.le, mul_comm] at hC
    exact le_of_mul_le_mul_right hC hc
  have h2 : ‖((s / c : ℝ) : ℂ) * z‖ ≤ 1.09 * ‖z‖ := by
    rw [norm_mul, Complex.norm_real, norm_eq_abs]
    refine mul_le_mul_of_nonneg_right ?_ hz0
    rw [abs_div, abs_of_pos hc, div_le_iff₀ hc]
    exact hs
  have h3 : ‖t‖ ≤ 1.1 * ‖z‖ := by
    have := norm_sub_le (t + ((s / c : ℝ) : ℂ) * z) (((s / c : ℝ) : ℂ) * z)
    rw [add_sub_cancel_right] at this
    nlinarith
  have ht0 : 1 + t ≠ 0 := by
    intro h
    have : t = -1 := by linear_combination h
    rw [this] at h3
    norm_num at h3
    linarith
  have hn : 0.99 ≤ ‖1 + t‖ := by
    have := norm_sub_norm_le (1 : ℂ) (-t)
    rw [sub_neg_eq_add, norm_one, norm_neg] at this
    linarith
  -- `K / C = (K / c) (1 + u)`
  have e : (K : ℂ) / C = ((K / c : ℝ) : ℂ) * (1 + -t / (1 + t)) := by
    rw [ht]
    push_cast
    field_simp
    ring
  have hu : ‖-t / (1 + t)‖ ≤ 1.12 * ‖z‖ := by
    rw [norm_div, norm_neg, div_le_iff₀ (by linarith)]
    nlinarith
  have hut : ‖-t / (1 + t) + t‖ ≤ 1.25 * ‖z‖ ^ 2 := by
    have e : -t / (1 + t) + t = t ^ 2 / (1 + t) := by field_simp; ring
    rw [e, norm_div, norm_pow, div_le_iff₀ (by linarith)]
    have := pow_le_pow_left₀ (norm_nonneg _) h3 2
    nlinarith [sq_nonneg ‖z‖]
  have hw : 1 + -t / (1 + t) ≠ 0 := by
    rw [show 1 + -t / (1 + t) = 1 / (1 + t) by field_simp; ring]
    exact div_ne_zero one_ne_zero ht0
  rw [e, show (1 / 2 : ℂ) = ((1 / 2 : ℝ) : ℂ) by push_cast; rfl, cpow_mul_real (by positivity) hw, ← sqrt_eq_rpow, ← mul_sub, norm_mul, Complex.norm_real, norm_of_nonneg (sqrt_nonneg _), mul_comm]
  refine mul_le_mul_of_nonneg_right ?_ (sqrt_nonneg _)
  have h5 := cpow_lin (z := -t / (1 + t)) (p := 1 / 2) (by linarith) (by norm_num)
  generalize -t / (1 + t) = u at *
  have e2 : (1 + u) ^ ((1 / 2 : ℝ) : ℂ) - (1 + ((s / (2 * c) : ℝ) : ℂ) * z) =
      ((1 + u) ^ ((1 / 2 : ℝ) : ℂ) - 1 - ((1 / 2 : ℝ) : ℂ) * u) + ((1 / 2 : ℝ) : ℂ) * ((u + t) - (t + ((s / c : ℝ) : ℂ) * z)) := by
    push_cast
    field_simp
    ring
  rw [e2]
  refine (norm_add_le _ _).trans ?_
  rw [norm_mul, Complex.norm_real, show ‖(1 / 2 : ℝ)‖ = 1 / 2 by norm_num]
  have h6 := norm_sub_le (u + t) (t + ((s / c : ℝ) : ℂ) * z)
  have h7 := pow_le_pow_left₀ (norm_nonneg _) hu 2
  nlinarith [sq_nonneg ‖z‖]

/-- What the solver sees at a velocity `x` of at least 1e-9 m/s, with the slope. -/
theorem vtEq_lin {g Dp rhop rho mu x : ℝ} (hg : 0 < g) (hDp : 0 < Dp) (hr : rho < rhop) (hrho : 0 < rho) (hmu : 0 < mu) (hx : 1e-9 ≤ x) :
    ∃ a a' b, a = √(4 * Dp * g * (rhop - rho) / (3 * cdSphere (rho * x * Dp / mu) * rho)) ∧ 0 < a ∧ vtEq g Dp rhop rho mu (x, eps) = (x - a', eps - b) ∧
      |a' - a| ≤ 17 * (eps / x) ^ 2 * a ∧ |b - cdS (rho * x * Dp / mu) / (2 * cdSphere (rho * x * Dp / mu)) * (eps / x) * a| ≤ 17 * (eps / x) ^ 2 * a := by
  have he : (0 : ℝ) < eps := by norm_num [eps]
  have he1 : (eps : ℝ) ≤ 2.3e-16 := by norm_num [eps]
  have hx0 : 0 < x := by linarith
  have hd : 0 < eps / x := by positivity
  have hd1 : eps / x ≤ 1e-5 := by rw [div_le_iff₀ hx0]; linarith
  have hR : 0 < rho * x * Dp / mu := by positivity
  have hΔ : 0 < rhop - rho := by linarith
  have eRep : (rho * toC (x, eps) * Dp / mu : ℂ) = ((rho * x * Dp / mu : ℝ) : ℂ) * (1 + ((eps / x : ℝ) : ℂ) * Complex.I) := by
    have : toC (x, eps) = (x : ℂ) + (eps : ℝ) * Complex.I := by apply Complex.ext <;> simp [toC]
    have hx' : (x : ℂ) ≠ 0 := by exact_mod_cast hx0.ne'
    rw [this]
    push_cast
    field_simp
  have hz : ‖((eps / x : ℝ) : ℂ) * Complex.I‖ = eps / x := by rw [norm_mul, Complex.norm_I, Complex.norm_real, norm_of_nonneg hd.le, mul_one]
  have hcd : 0 < cdSphere (rho * x * Dp / mu) := lt_trans (by positivity) (cdSphere_pos hR)
  have h1 := cd_lin hR (z := ((eps / x : ℝ) : ℂ) * Complex.I) (by rw [hz]; exact hd1)
  have hs := (cdS_bounds hR).1
  unfold vtEq
  simp only [eRep]
  generalize 24 / (((rho * x * Dp / mu : ℝ) : ℂ) * (1 + ((eps / x : ℝ) : ℂ) * Complex.I)) * (1 + 0.173 * (((rho * x * Dp / mu : ℝ) : ℂ) * (1 + ((eps / x : ℝ) : ℂ) * Complex.I)) ^ (0.657 : ℂ)) +
    0.413 / (1 + 16300 * (((rho * x * Dp / mu : ℝ) : ℂ) * (1 + ((eps / x : ℝ) : ℂ) * Complex.I)) ^ (-1.09 : ℂ)) = C at h1 ⊢
  generalize cdSphere (rho * x * Dp / mu) = c at *
  generalize cdS (rho * x * Dp / mu) = s at *
  have hrho' : (rho : ℂ) ≠ 0 := by exact_mod_cast hrho.ne'
  have ew' : 4 * Dp * g * (rhop - rho) / (3 * c * rho) = 4 * Dp * g * (rhop - rho) / (3 * rho) / c := by field_simp
  have hK : 0 < 4 * Dp * g * (rhop - rho) / (3 * rho) := by positivity
  have h2 := root_lin hK hcd (by rw [hz]; exact hd1) hs h1
  have ew : ((4 * Dp * g * (rhop - rho) : ℝ) : ℂ) / (3 * C * rho) = ((4 * Dp * g * (rhop - rho) / (3 * rho) : ℝ) : ℂ) / C := by
    push_cast
    rw [div_div]
    congr 1
    ring
  rw [ew, ew']
  generalize 4 * Dp * g * (rhop - rho) / (3 * rho) = K at *
  have ha : 0 < √(K / c) := sqrt_pos.2 (by positivity)
  rw [hz] at h2
  generalize ((K : ℂ) / C) ^ (1 / 2 : ℂ) = h at *
  refine ⟨_, h.re, h.im, rfl, ha, ?_, ?_, ?_⟩
  · simp only [toC, Complex.sub_re, Complex.sub_im]
  · have := (Complex.abs_re_le_norm _).trans h2
    simp only [Complex.sub_re, Complex.re_ofReal_mul, Complex.add_re, Complex.one_re, Complex.re_ofReal_mul, Complex.I_re, mul_zero, add_zero, mul_one] at this
    exact this
  · have := (Complex.abs_im_le_norm _).trans h2
    simp only [Complex.sub_im, Complex.im_ofReal_mul, Complex.add_im, Complex.one_im, Complex.im_ofReal_mul, Complex.I_im, mul_one, zero_add] at this
    rw [show √(K / c) * (s / (2 * c) * (eps / x)) = s / (2 * c) * (eps / x) * √(K / c) by ring] at this
    exact this

end Verif.Flow
