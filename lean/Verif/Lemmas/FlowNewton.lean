import Verif.Lemmas.FlowStep

/-! # Helper lemmas: the iterates of `vt_sphere` for a small particle -/

namespace Verif.Flow

open Real

/-- What the solver sees at a trial velocity `x`. -/
theorem vtEq_step {g Dp rhop rho mu x : ℝ} (hg : 0 < g) (hDp : 0 < Dp) (hr : rho < rhop) (hrho : 0 < rho) (hmu : 0 < mu) (hx : 0 < x)
    (hR1 : rho * x * Dp / mu ≤ 1) (hx1 : 1000 * eps ≤ x) :
    ∃ a b, vtEq g Dp rhop rho mu (x, eps) = (x - a, eps - b) ∧ 0 < a ∧ 0 ≤ b ∧ b ≤ eps / x / 2 * a ∧
      vtStokes g Dp rhop rho mu * x / 1.191 ≤ a ^ 2 + b ^ 2 ∧ a ^ 2 + b ^ 2 ≤ vtStokes g Dp rhop rho mu * x * (1 + (eps / x) ^ 2) := by
  have he : (0 : ℝ) < eps := by norm_num [eps]
  have hd : 0 < eps / x := by positivity
  have hd1 : eps / x ≤ 1 / 1000 := by rw [div_le_iff₀ hx]; linarith
  have hR : 0 < rho * x * Dp / mu := by positivity
  have hΔ : 0 < rhop - rho := by linarith
  have eRep : (rho * toC (x, eps) * Dp / mu : ℂ) = ⟨rho * x * Dp / mu, rho * x * Dp / mu * (eps / x)⟩ := by
    have : toC (x, eps) = (x : ℂ) + (eps : ℝ) * Complex.I := by apply Complex.ext <;> simp [toC]
    rw [this, div_eq_iff (by exact_mod_cast hmu.ne')]
    apply Complex.ext <;> simp <;> field_simp
  have hK : 0 < 4 * Dp * g * (rhop - rho) / (3 * rho) := by positivity
  have eS : 4 * Dp * g * (rhop - rho) / (3 * rho) / (24 / (rho * x * Dp / mu)) = vtStokes g Dp rhop rho mu * x := by
    unfold vtStokes
    field_simp
    ring
  unfold vtEq
  simp only [eRep]
  obtain ⟨C, hC⟩ : ∃ C : ℂ, C = 24 / (⟨rho * x * Dp / mu, rho * x * Dp / mu * (eps / x)⟩ : ℂ) * (1 + 0.173 * (⟨rho * x * Dp / mu, rho * x * Dp / mu * (eps / x)⟩ : ℂ) ^ (0.657 : ℂ)) +
      0.413 / (1 + 16300 * (⟨rho * x * Dp / mu, rho * x * Dp / mu * (eps / x)⟩ : ℂ) ^ (-1.09 : ℂ)) := ⟨_, rfl⟩
  obtain ⟨h1, h2, h3, h4⟩ := cd_cone hR hR1 hd hd1 hC
  rw [← hC]
  clear hC eRep
  generalize rho * x * Dp / mu = R at *
  generalize eps / x = d at hd hd1 h1 h3 ⊢
  have hC0 : 0 < C.re := lt_of_lt_of_le (by positivity) h1
  have ew : ((4 * Dp * g * (rhop - rho) : ℝ) : ℂ) / (3 * C * rho) = ((4 * Dp * g * (rhop - rho) / (3 * rho) : ℝ) : ℂ) / C := by
    have : (rho : ℂ) ≠ 0 := by exact_mod_cast hrho.ne'
    have : C ≠ 0 := by rintro rfl; simp at hC0
    push_cast
    field_simp
  rw [ew]
  generalize 4 * Dp * g * (rhop - rho) / (3 * rho) = K at hK eS
  have hns : 0 < Complex.normSq C := Complex.normSq_pos.2 (by rintro rfl; simp at hC0)
  have hwr : ((K : ℂ) / C).re = K * C.re / Complex.normSq C := by simp [Complex.div_re]
  have hwi : ((K : ℂ) / C).im = -(K * C.im) / Complex.normSq C := by simp [Complex.div_im]; ring
  have hwn : ‖(K : ℂ) / C‖ = K / ‖C‖ := by rw [norm_div, Complex.norm_real, norm_of_nonneg hK.le]
  have hCn : 0 < ‖C‖ := norm_pos_iff.2 (by rintro rfl; simp at hC0)
  obtain ⟨q1, q2, q3, q4⟩ := sqrt_cone (w := (K : ℂ) / C) (d := d) (by rw [hwr]; positivity) (by rw [hwi]; exact div_nonneg (by nlinarith) hns.le)
    (by rw [hwr, hwi, mul_div_assoc', div_le_div_iff_of_pos_right hns]; nlinarith)
  rw [hwn] at q4
  refine ⟨(((K : ℂ) / C) ^ (1 / 2 : ℂ)).re, (((K : ℂ) / C) ^ (1 / 2 : ℂ)).im, ?_, q1, q2, q3, ?_, ?_⟩
  · simp only [toC, Complex.sub_re, Complex.sub_im]
  · rw [q4, ← eS, div_div]
    exact div_le_div_of_nonneg_left hK.le hCn (by linarith)
  · rw [q4, ← eS, div_mul_eq_mul_div, div_le_div_iff₀ hCn (by positivity)]
    have h5 := h1.trans ((le_abs_self _).trans (Complex.abs_re_le_norm C))
    rw [div_le_iff₀ (by positivity)] at h5
    nlinarith

/-- One pass of the loop of `root_newton`. -/
theorem newton_pass {f : ℝ × ℝ → ℝ × ℝ} {x a b : ℝ} (hf : f (x, eps) = (x - a, eps - b)) (hx : 0 < x) (ha : 0 < a) (hb : 0 ≤ b) (hb1 : b ≤ eps / x / 2 * a)
    (hax : a ≤ x / 50) (n k : ℕ) (hk : k + 1 < 50) (fx : Option ℝ) (m : ℕ) (calls : List (ℝ × ℝ)) :
    (∃ r, newtonLoop f 1e-6 1e-6 50 (n + 1) k x fx m calls = .ok r ∧ r.1.success = true ∧ r.1.x = x) ∨
      (1e-6 < x - a ∧ ∃ x' fx' m' calls', newtonLoop f 1e-6 1e-6 50 (n + 1) k x fx m calls = newtonLoop f 1e-6 1e-6 50 n (k + 1) x' fx' m' calls' ∧
        a / 2 ≤ x' ∧ x' * (1 - a / (2 * x)) ≤ a) := by
  have he : (0 : ℝ) < eps := by norm_num [eps]
  have he1 : (eps : ℝ) < 1 / 2 := by norm_num [eps]
  rw [newtonLoop]
  simp only [derivativeComplex, hf]
  have hβ0 : 0 ≤ b / eps := by positivity
  have hβ1 : b / eps ≤ a / (2 * x) := by
    rw [div_le_div_iff₀ he (by positivity)]
    have : eps / x / 2 * a * (2 * x) = a * eps := by field_simp
    nlinarith
  have hβ2 : a / (2 * x) ≤ 1 / 100 := by rw [div_le_div_iff₀ (by positivity) (by norm_num)]; linarith
  have e1 : (eps - b) / eps = 1 - b / eps := by rw [sub_div, div_self he.ne']
  rw [e1]
  have hβx : b / eps * x ≤ a / 2 := by
    have := mul_le_mul_of_nonneg_right hβ1 hx.le
    rwa [show a / (2 * x) * x = a / 2 by field_simp] at this
  generalize b / eps = β at hβ0 hβ1 hβx
  have hd : 0 < 1 - β := by linarith
  by_cases h1 : |x - a| ≤ 1e-6
  · left
    rw [if_pos h1]
    exact ⟨_, rfl, rfl, rfl⟩
  rw [if_neg h1, if_neg (by rw [abs_of_pos hd]; linarith)]
  have hpos : 1e-6 < x - a := by
    rw [abs_of_pos (by linarith)] at h1
    exact not_le.1 h1
  by_cases h2 : |-(x - a) / (1 - β)| ≤ 1e-6
  · left
    rw [if_pos h2]
    exact ⟨_, rfl, rfl, rfl⟩
  right
  rw [if_neg h2, if_pos hk]
  refine ⟨hpos, _, _, _, _, rfl, ?_, ?_⟩
  · have e2 : x + -(x - a) / (1 - β) = (a - β * x) / (1 - β) := by field_simp; ring
    rw [e2, le_div_iff₀ hd]
    nlinarith
  · have e2 : x + -(x - a) / (1 - β) = (a - β * x) / (1 - β) := by field_simp; ring
    have h5 : 0 ≤ β * x := by positivity
    have h6 : (a - β * x) / (1 - β) * (1 - β) = a - β * x := div_mul_cancel₀ _ hd.ne'
    have h7 : 0 ≤ (a - β * x) / (1 - β) := div_nonneg (by linarith) hd.le
    rw [e2]
    nlinarith

end Verif.Flow
