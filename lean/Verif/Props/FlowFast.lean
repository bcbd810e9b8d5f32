import Verif.Lemmas.FlowNegative

/-!
# C130: `vt_sphere` returns negative velocities for fast spheres
-/

namespace Verif.Flow

open Real

theorem cdSphere_deriv {R : ℝ} (hR : 0 < R) : HasDerivAt cdSphere (-(cdS R / R)) R := by
  obtain ⟨c1, c2, hQ, c3⟩ := cd_terms_pos hR
  have h1 : HasDerivAt (fun R : ℝ => R ^ (0.657 : ℝ)) (0.657 * R ^ (0.657 - 1 : ℝ)) R := hasDerivAt_rpow_const (Or.inl hR.ne')
  have h2 : HasDerivAt (fun R : ℝ => R ^ (-1.09 : ℝ)) (-1.09 * R ^ (-1.09 - 1 : ℝ)) R := hasDerivAt_rpow_const (Or.inl hR.ne')
  rw [rpow_sub_one hR.ne'] at h1 h2
  have h3 : HasDerivAt (fun R : ℝ => 24 / R) (-24 / R ^ 2) R := by
    have := (hasDerivAt_inv hR.ne').const_mul 24
    refine this.congr_deriv ?_ |>.congr_of_eventuallyEq ?_
    · ring
    · filter_upwards with x
      rw [div_eq_mul_inv]
  have h4 := h3.fun_mul ((h1.const_mul 0.173).const_add 1)
  have hq : 1 + 16300 * R ^ (-1.09 : ℝ) ≠ 0 := by
    have : 0 < 1 + cdQ R := by positivity
    exact this.ne'
  have h5 := ((h2.const_mul 16300).const_add 1).fun_inv hq |>.const_mul 0.413
  have h6 := h4.fun_add h5
  refine (h6.congr_deriv ?_).congr_of_eventuallyEq ?_
  · unfold cdS cdA cdB cdG cdQ
    generalize R ^ (0.657 : ℝ) = P
    generalize R ^ (-1.09 : ℝ) = Q at *
    field_simp
    ring
  · filter_upwards with x
    simp only [cdSphere, div_eq_mul_inv, Pi.add_apply, Pi.mul_apply]

/-- The residual of the drag balance, `v - √(4 Dp g (rhop - rho) / (3 Cd rho))`, at the velocity `v`. -/
noncomputable def balance (g Dp rhop rho mu v : ℝ) : ℝ := v - √(4 * Dp * g * (rhop - rho) / (3 * cdSphere (rho * v * Dp / mu) * rho))

theorem balance_deriv {g Dp rhop rho mu : ℝ} (hg : 0 < g) (hDp : 0 < Dp) (hr : rho < rhop) (hrho : 0 < rho) (hmu : 0 < mu) :
    HasDerivAt (balance g Dp rhop rho mu) (1 - cdS (rho * 1 * Dp / mu) / (2 * cdSphere (rho * 1 * Dp / mu)) * √(4 * Dp * g * (rhop - rho) / (3 * cdSphere (rho * 1 * Dp / mu) * rho))) 1 := by
  have hR : 0 < rho * 1 * Dp / mu := by positivity
  have hc : 0 < cdSphere (rho * 1 * Dp / mu) := lt_trans (by positivity) (cdSphere_pos hR)
  have hΔ : 0 < rhop - rho := by linarith
  have h1 : HasDerivAt (fun v : ℝ => rho * v * Dp / mu) (rho * 1 * Dp / mu) 1 := (((hasDerivAt_id' (1 : ℝ)).const_mul rho).mul_const Dp).div_const mu
  have h2 : HasDerivAt (fun v : ℝ => cdSphere (rho * v * Dp / mu)) (-(cdS (rho * 1 * Dp / mu) / (rho * 1 * Dp / mu)) * (rho * 1 * Dp / mu)) 1 := by
    have h := HasDerivAt.comp (h₂ := cdSphere) (1 : ℝ) (cdSphere_deriv hR) h1
    exact h
  have h3 := ((h2.const_mul 3).mul_const rho).fun_inv (show 3 * cdSphere (rho * 1 * Dp / mu) * rho ≠ 0 by positivity) |>.const_mul (4 * Dp * g * (rhop - rho))
  have h4 := h3.sqrt (show 4 * Dp * g * (rhop - rho) * (3 * cdSphere (rho * 1 * Dp / mu) * rho)⁻¹ ≠ 0 by positivity)
  have h5 := (hasDerivAt_id' (1 : ℝ)).fun_sub h4
  refine (h5.congr_deriv ?_).congr_of_eventuallyEq ?_
  · show _ - _ = _
    congr 1
    simp only [Function.comp, ← div_eq_mul_inv]
    generalize rho * 1 * Dp / mu = R at *
    generalize cdSphere R = c at *
    generalize cdS R = s at *
    have hX : 0 < 4 * Dp * g * (rhop - rho) / (3 * c * rho) := by positivity
    have e := sq_sqrt hX.le
    have hs := sqrt_pos.2 hX
    generalize hS : √(4 * Dp * g * (rhop - rho) / (3 * c * rho)) = S at *
    rw [div_eq_iff (by positivity)]
    have e2 : 4 * Dp * g * (rhop - rho) = S ^ 2 * (3 * c * rho) := by rw [e]; field_simp
    rw [e2]
    field_simp
  · filter_upwards with x
    simp only [balance, Function.comp, ← div_eq_mul_inv, Pi.sub_apply]

theorem cd_ge {R : ℝ} (hR : 0 < R) : 0.17 ≤ cdSphere R := by
  obtain ⟨c1, c2, hQ, c3⟩ := cd_terms_pos hR
  rw [cd_terms]
  rcases le_total R 1e4 with h | h
  · have : cdB R = 24 * 0.173 * R ^ (-0.343 : ℝ) := by
      unfold cdB
      rw [show (-0.343 : ℝ) = 0.657 - 1 by norm_num, rpow_sub_one hR.ne']
      field_simp
    have h6 : (0.042 : ℝ) ≤ R ^ (-0.343 : ℝ) := le_trans (show (0.042 : ℝ) ≤ (1e4 : ℝ) ^ (-0.343 : ℝ) by iv) (rpow_le_rpow_of_nonpos hR h (by norm_num))
    linarith
  · have h6 : R ^ (-1.09 : ℝ) ≤ 4.4e-5 := le_trans (rpow_le_rpow_of_nonpos (by norm_num) h (by norm_num)) (show (1e4 : ℝ) ^ (-1.09 : ℝ) ≤ 4.4e-5 by iv)
    have : 0.17 ≤ cdG R := by
      unfold cdG
      rw [le_div_iff₀ (by positivity)]
      unfold cdQ
      linarith
    linarith

theorem cdAB_anti {R r : ℝ} (hR : 0 < R) (h : R ≤ r) : cdA r + cdB r ≤ cdA R + cdB R := by
  have hr := hR.trans_le h
  have e : ∀ x : ℝ, 0 < x → cdB x = 24 * 0.173 * x ^ (-0.343 : ℝ) := fun x hx => by
    unfold cdB
    rw [show (-0.343 : ℝ) = 0.657 - 1 by norm_num, rpow_sub_one hx.ne']
    field_simp
  rw [e r hr, e R hR]
  have h1 : r ^ (-0.343 : ℝ) ≤ R ^ (-0.343 : ℝ) := rpow_le_rpow_of_nonpos hR h (by norm_num)
  have h2 : cdA r ≤ cdA R := div_le_div_of_nonneg_left (by norm_num) hR h
  linarith

/-- What the solver sees at a negative velocity: an imaginary part of order one. -/
theorem vtEq_neg {g Dp rhop rho mu X : ℝ} (hg : 0 < g) (hDp : 0 < Dp) (hr : rho < rhop) (hrho : 0 < rho) (hmu : 0 < mu) (hX : 1 ≤ X)
    (hR : 1e-6 ≤ rho * Dp / mu) (hR2 : rho * X * Dp / mu ≤ 1e12) :
    ∃ S p q, √(4 * Dp * g * (rhop - rho) / (3 * cdSphere (rho * 1 * Dp / mu) * rho)) ≤ 4 * S ∧ vtEq g Dp rhop rho mu (-X, eps) = (-X - p, eps - q) ∧ 0 ≤ p ∧ p ≤ S ∧ 5e-7 * S ≤ q := by
  have he : (0 : ℝ) < eps := by norm_num [eps]
  have he1 : (eps : ℝ) ≤ 2.3e-16 := by norm_num [eps]
  have hX0 : 0 < X := by linarith
  have hΔ : 0 < rhop - rho := by linarith
  have hR0 : 0 < rho * 1 * Dp / mu := by positivity
  have hRr : rho * 1 * Dp / mu ≤ rho * X * Dp / mu := by gcongr
  have eRep : (rho * toC (-X, eps) * Dp / mu : ℂ) = -(((rho * X * Dp / mu : ℝ) : ℂ) * (1 + -((eps / X : ℝ) : ℂ) * Complex.I)) := by
    have : toC (-X, eps) = -(X : ℂ) + (eps : ℝ) * Complex.I := by apply Complex.ext <;> simp [toC]
    have hx' : (X : ℂ) ≠ 0 := by exact_mod_cast hX0.ne'
    rw [this]
    push_cast
    field_simp
    ring
  have hd1 : eps / X ≤ 1e-10 := by rw [div_le_iff₀ hX0]; linarith
  obtain ⟨i1, i2, i3⟩ := cd_neg (r := rho * X * Dp / mu) (d := eps / X) (by rw [mul_one] at hRr; linarith) hR2 (by positivity) hd1 rfl rfl
  have hcd := cd_ge hR0
  obtain ⟨-, -, -, c3⟩ := cd_terms_pos hR0
  have i4 := cdAB_anti hR0 hRr
  have i5 := cd_terms (rho * 1 * Dp / mu)
  unfold vtEq
  simp only [eRep]
  generalize 24 / (-(((rho * X * Dp / mu : ℝ) : ℂ) * (1 + -((eps / X : ℝ) : ℂ) * Complex.I))) * (1 + 0.173 * (-(((rho * X * Dp / mu : ℝ) : ℂ) * (1 + -((eps / X : ℝ) : ℂ) * Complex.I))) ^ (0.657 : ℂ)) +
    0.413 / (1 + 16300 * (-(((rho * X * Dp / mu : ℝ) : ℂ) * (1 + -((eps / X : ℝ) : ℂ) * Complex.I))) ^ (-1.09 : ℂ)) = C at *
  have hC1 : ‖C‖ ≤ 16 * cdSphere (rho * 1 * Dp / mu) := by linarith
  clear i3 i4 i5 c3
  generalize cdSphere (rho * 1 * Dp / mu) = c at *
  have hC0 : C ≠ 0 := by rintro rfl; simp at i1
  have nC : 0 < ‖C‖ := norm_pos_iff.2 hC0
  have ew : ((4 * Dp * g * (rhop - rho) : ℝ) : ℂ) / (3 * C * rho) = ((4 * Dp * g * (rhop - rho) / (3 * rho) : ℝ) : ℂ) / C := by
    push_cast
    rw [div_div]
    congr 1
    ring
  have ew' : 4 * Dp * g * (rhop - rho) / (3 * c * rho) = 4 * Dp * g * (rhop - rho) / (3 * rho) / c := by
    have : 0 < c := by linarith
    field_simp
  rw [ew, ew']
  have hK : 0 < 4 * Dp * g * (rhop - rho) / (3 * rho) := by positivity
  generalize 4 * Dp * g * (rhop - rho) / (3 * rho) = K at *
  have hwim : ((K : ℂ) / C).im = K * -C.im / ‖C‖ ^ 2 := by
    rw [Complex.div_im, Complex.ofReal_re, Complex.ofReal_im, Complex.sq_norm]
    ring
  have hw0 : 0 < ((K : ℂ) / C).im := by
    rw [hwim]
    have : 0 < -C.im := by linarith
    positivity
  have hwn : ‖(K : ℂ) / C‖ = K / ‖C‖ := by rw [norm_div, Complex.norm_real, norm_of_nonneg hK.le]
  obtain ⟨j1, j2, j3⟩ := sqrt_upper hw0
  rw [hwn] at j2 j3
  rw [hwim] at j3
  have hS : 0 < √(K / ‖C‖) := sqrt_pos.2 (by positivity)
  have hS2 : √(K / ‖C‖) ^ 2 = K / ‖C‖ := sq_sqrt (by positivity)
  refine ⟨√(K / ‖C‖), _, (((K : ℂ) / C) ^ (1 / 2 : ℂ)).im, ?_, ?_, j1, j2, ?_⟩
  · have : √(K / c) ≤ √(16 * (K / ‖C‖)) := by
      apply sqrt_le_sqrt
      have hc : 0 < c := by linarith
      rw [show 16 * (K / ‖C‖) = 16 * K / ‖C‖ by ring, div_le_div_iff₀ hc nC]
      nlinarith
    rw [sqrt_mul (by norm_num), show √(16 : ℝ) = 4 by rw [show (16 : ℝ) = 4 ^ 2 by norm_num]; exact sqrt_sq (by norm_num)] at this
    exact this
  · simp only [toC, Complex.sub_re, Complex.sub_im]
  · have h7 : 1e-6 * (K / ‖C‖) ≤ K * -C.im / ‖C‖ ^ 2 := by
      rw [mul_div_assoc', div_le_div_iff₀ nC (by positivity)]
      have : 1e-6 * ‖C‖ * (K * ‖C‖) ≤ -C.im * (K * ‖C‖) := mul_le_mul_of_nonneg_right i2 (by positivity)
      linarith
    rw [← hS2] at h7
    have h8 := h7.trans j3
    generalize √(K / ‖C‖) = S at *
    generalize (((K : ℂ) / C) ^ (1 / 2 : ℂ)).im = q at *
    have h9 : S * (5e-7 * S) ≤ S * q := by linarith [sq S]
    exact le_of_mul_le_mul_left h9 hS

/-- **C130 (false for fast spheres).** Whenever the drag balance slopes downwards at the first guess of 1 m/s (by more than 0.01), the first Newton step leads to a negative
velocity, where the complex step sees a huge imaginary part and therefore takes the next step for negligible: `vt_sphere` reports success and returns a velocity of -1 m/s or less. -/
theorem C130_fast_false {g Dp rhop rho mu s : ℝ} (hg : 0 < g) (hDp : 0 < Dp) (hr : rho < rhop) (hrho : 0 < rho) (hmu : 0 < mu)
    (hs : HasDerivAt (balance g Dp rhop rho mu) s 1) (hs1 : s ≤ -0.01) (hR : 1e-6 ≤ rho * Dp / mu) (hR2 : rho * Dp / mu ≤ 1e6) (hK : 4 * Dp * g * (rhop - rho) / (3 * rho) ≤ 1e6) :
    ∃ v, vtSphere g Dp rhop rho mu = .ok v ∧ v ≤ -1 := by
  have he : (0 : ℝ) < eps := by norm_num [eps]
  have he1 : (eps : ℝ) ≤ 2.3e-16 := by norm_num [eps]
  have hΔ : 0 < rhop - rho := by linarith
  have hR0 : 0 < rho * 1 * Dp / mu := by positivity
  have e1 := hs.unique (balance_deriv hg hDp hr hrho hmu)
  obtain ⟨a, a', b, ea, ha, ef, n1, n2⟩ := vtEq_lin hg hDp hr hrho hmu (show (1e-9 : ℝ) ≤ 1 by norm_num)
  have hc := cd_ge hR0
  have hcS := (cdS_bounds hR0).2
  have neg := fun X hX hX2 => vtEq_neg (X := X) hg hDp hr hrho hmu hX hR hX2
  rw [← ea] at e1
  simp only [← ea] at neg
  have hκ : cdS (rho * 1 * Dp / mu) / (2 * cdSphere (rho * 1 * Dp / mu)) ≤ 1 / 2 := by
    rw [div_le_iff₀ (by linarith)]
    linarith
  have ha1 : a ≤ 2500 := by
    rw [ea, sqrt_le_left (by norm_num), div_le_iff₀ (by positivity)]
    rw [div_le_iff₀ (by positivity)] at hK
    have : 0.17 * (3 * rho * 6250000) ≤ cdSphere (rho * 1 * Dp / mu) * (3 * rho * 6250000) := mul_le_mul_of_nonneg_right hc (by positivity)
    nlinarith
  generalize cdS (rho * 1 * Dp / mu) / (2 * cdSphere (rho * 1 * Dp / mu)) = κ at *
  clear hc hcS ea hK hs
  rw [div_one] at n1 n2
  have ee : (eps : ℝ) ^ 2 ≤ eps * 2.3e-16 := by rw [sq]; exact mul_le_mul_of_nonneg_left he1 he.le
  have hm : 17 * eps ^ 2 * a ≤ 1e-11 * eps := by nlinarith
  -- the slope
  have hβ : |b / eps - κ * a| ≤ 1e-11 := by
    rw [show b / eps - κ * a = (b - κ * eps * a) / eps by field_simp, abs_div, abs_of_pos he, div_le_iff₀ he]
    linarith
  have hA : |a' - a| ≤ 1e-11 := n1.trans (hm.trans (by linarith))
  have hκa : κ * a ≤ 1 / 2 * a := mul_le_mul_of_nonneg_right hκ ha.le
  clear n1 n2 hm ee hκ
  have hβ1 : 1.009 ≤ b / eps := by linarith [(abs_le.1 hβ).1]
  have hβ2 : 2 * (b / eps) ≤ a' + 1e-10 := by linarith [(abs_le.1 hβ).2, (abs_le.1 hA).1]
  have ha2 : a' ≤ a + 1e-11 := by linarith [(abs_le.1 hA).2]
  clear hβ hA hκa e1
  have eD : (eps - b) / eps = 1 - b / eps := by field_simp
  generalize hB : b / eps = β at *
  have hβ0 : 0 < β - 1 := by linarith
  set X : ℝ := (a' - β) / (β - 1) with hXd
  have hX1 : 1 ≤ X := by
    rw [hXd, le_div_iff₀ hβ0]
    linarith
  have hX2 : X ≤ 120 * a := by
    rw [hXd, div_le_iff₀ hβ0]
    have : 120 * a * 0.009 ≤ 120 * a * (β - 1) := mul_le_mul_of_nonneg_left (by linarith) (by positivity)
    linarith
  have eX : 1 + -(1 - a') / (1 - β) = -X := by
    rw [hXd]
    have : 1 - β ≠ 0 := by linarith
    have : β - 1 ≠ 0 := by linarith
    field_simp
    ring
  have eX2 : -(1 - a') / (1 - β) = -(X + 1) := by linarith
  obtain ⟨S, p, q, s1, ef2, s2, s3, s4⟩ := neg X hX1 (by
    rw [show rho * X * Dp / mu = rho * Dp / mu * X by ring]
    have : rho * Dp / mu * X ≤ 1e6 * X := mul_le_mul_of_nonneg_right hR2 (by linarith)
    linarith)
  clear neg
  unfold vtSphere rootNewton
  rw [newtonLoop]
  simp only [derivativeComplex, ef, eD]
  rw [if_neg (by rw [abs_of_neg (by linarith)]; linarith), if_neg (by rw [abs_of_neg (by linarith)]; linarith), eX2, if_neg (by rw [abs_neg, abs_of_pos (by linarith)]; linarith), if_pos (by norm_num), ← eX2, eX, newtonLoop]
  simp only [derivativeComplex, ef2]
  have hS : 1e-7 ≤ q := by linarith
  have hq : 0 < q - eps := by linarith
  have hD : 1e9 * S ≤ (q - eps) / eps := by
    rw [le_div_iff₀ he]
    nlinarith
  have eD2 : (eps - q) / eps = -((q - eps) / eps) := by ring
  rw [if_neg (by rw [abs_of_neg (by linarith)]; linarith), eD2, if_neg (by rw [abs_neg, abs_of_pos (by linarith)]; linarith), if_pos (by
    rw [neg_div_neg_eq, abs_div, abs_of_pos (show 0 < (q - eps) / eps by linarith), div_le_iff₀ (by linarith), abs_of_neg (by linarith)]
    linarith)]
  exact ⟨-X, rfl, by linarith⟩

set_option synthInstance.maxHeartbeats 200000 in
set_option synthInstance.maxSize 1024 in
/-- A 1 mm steel ball in air. -/
example : ∃ v, vtSphere 9.80665 1e-3 7800 1.2 1.8e-5 = .ok v ∧ v ≤ -1 :=
  C130_fast_false (by norm_num) (by norm_num) (by norm_num) (by norm_num) (by norm_num)
    (balance_deriv (by norm_num) (by norm_num) (by norm_num) (by norm_num) (by norm_num)) (by
      rw [show (1.2 * 1 * 1e-3 / 1.8e-5 : ℝ) = 200 / 3 by norm_num]
      unfold cdSphere cdS cdA cdB cdG cdQ
      iv) (by norm_num) (by norm_num) (by norm_num)

set_option synthInstance.maxHeartbeats 200000 in
set_option synthInstance.maxSize 1024 in
/-- **C130 (false as stated).** A 2 mm rain drop (1000 kg/m³) in air (1.2 kg/m³, 0.018 mPa s): the terminal velocity is positive, the value returned negative. -/
theorem C130_raindrop_false : ∃ v x, Settles 9.80665 2e-3 1000 1.2 1.8e-5 v ∧ vtSphere 9.80665 2e-3 1000 1.2 1.8e-5 = .ok x ∧ 0 < v ∧ x ≤ -1 := by
  obtain ⟨v, hv, -⟩ := C86_terminal_unique (g := 9.80665) (Dp := 2e-3) (rhop := 1000) (rho := 1.2) (mu := 1.8e-5) (by norm_num) (by norm_num) (by norm_num) (by norm_num) (by norm_num)
  obtain ⟨x, hx, hx1⟩ := C130_fast_false (g := 9.80665) (Dp := 2e-3) (rhop := 1000) (rho := 1.2) (mu := 1.8e-5) (by norm_num) (by norm_num) (by norm_num) (by norm_num) (by norm_num)
    (balance_deriv (by norm_num) (by norm_num) (by norm_num) (by norm_num) (by norm_num)) (by
      rw [show (1.2 * 1 * 2e-3 / 1.8e-5 : ℝ) = 400 / 3 by norm_num]
      unfold cdSphere cdS cdA cdB cdG cdQ
      iv) (by norm_num) (by norm_num) (by norm_num)
  exact ⟨v, x, hv, hx, hv.1, hx1⟩

end Verif.Flow
