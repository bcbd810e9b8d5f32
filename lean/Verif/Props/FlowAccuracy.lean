import Verif.Lemmas.FlowAccuracy

/-!
# C130: accuracy of what `vt_sphere` returns
-/

namespace Verif.Flow

open Real

/-- The drag coefficient falls more slowly than `1/Re`. -/
theorem mul_cd_mono {a b : ℝ} (ha : 0 < a) (hab : a ≤ b) : a * cdSphere a ≤ b * cdSphere b := by
  have hb := ha.trans_le hab
  have e : ∀ R : ℝ, 0 < R → R * cdSphere R = 24 * (1 + 0.173 * R ^ (0.657 : ℝ)) + 0.413 * R / (1 + 16300 * R ^ (-1.09 : ℝ)) := fun R hR => by
    unfold cdSphere
    generalize R ^ (0.657 : ℝ) = p
    generalize 1 + 16300 * R ^ (-1.09 : ℝ) = q
    field_simp
  rw [e a ha, e b hb]
  have h1 : a ^ (0.657 : ℝ) ≤ b ^ (0.657 : ℝ) := rpow_le_rpow ha.le hab (by norm_num)
  have h2 : b ^ (-1.09 : ℝ) ≤ a ^ (-1.09 : ℝ) := rpow_le_rpow_of_nonpos ha hab (by norm_num)
  have h2' := rpow_pos_of_pos hb (-1.09 : ℝ)
  have h3 : 0.413 * a / (1 + 16300 * a ^ (-1.09 : ℝ)) ≤ 0.413 * b / (1 + 16300 * b ^ (-1.09 : ℝ)) :=
    div_le_div₀ (by positivity) (by linarith) (by positivity) (by linarith)
  linarith

/-- Between a trial velocity `x` and the terminal velocity `v`, the right-hand side `a` of the drag balance is beyond the geometric mean. -/
theorem rhs_geom {g Dp rhop rho mu x v : ℝ} (hg : 0 < g) (hDp : 0 < Dp) (hr : rho < rhop) (hrho : 0 < rho) (hmu : 0 < mu) (hx : 0 < x)
    (h : Settles g Dp rhop rho mu v) {a : ℝ} (ha : a = √(4 * Dp * g * (rhop - rho) / (3 * cdSphere (rho * x * Dp / mu) * rho))) :
    (v ≤ x → a ^ 2 ≤ x * v) ∧ (x ≤ v → x * v ≤ a ^ 2) := by
  obtain ⟨hv, hv2⟩ := h
  have hd : 0 < rhop - rho := by linarith
  have hRx : 0 < rho * x * Dp / mu := by positivity
  have hRv : 0 < rho * v * Dp / mu := by positivity
  have hCx : 0 < cdSphere (rho * x * Dp / mu) := lt_trans (by positivity) (cdSphere_pos hRx)
  have hCv : 0 < cdSphere (rho * v * Dp / mu) := lt_trans (by positivity) (cdSphere_pos hRv)
  have e1 : v ^ 2 * cdSphere (rho * v * Dp / mu) = 4 * Dp * g * (rhop - rho) / (3 * rho) := by
    have : v ^ 2 = 4 * Dp * g * (rhop - rho) / (3 * cdSphere (rho * v * Dp / mu) * rho) := by
      conv_lhs => rw [hv2]
      exact sq_sqrt (by positivity)
    rw [this]
    generalize cdSphere (rho * v * Dp / mu) = c at hCv
    field_simp
  have e2 : a ^ 2 * cdSphere (rho * x * Dp / mu) = 4 * Dp * g * (rhop - rho) / (3 * rho) := by
    rw [ha, sq_sqrt (by positivity)]
    generalize cdSphere (rho * x * Dp / mu) = c at hCx
    field_simp
  have m : ∀ {p q : ℝ}, 0 < p → p ≤ q → p * cdSphere (rho * p * Dp / mu) ≤ q * cdSphere (rho * q * Dp / mu) := fun {p q} hp hpq => by
    have h0 : rho * p * Dp / mu ≤ rho * q * Dp / mu := by gcongr
    have h1 := mul_cd_mono (show 0 < rho * p * Dp / mu by positivity) h0
    have e : ∀ r : ℝ, rho * r * Dp / mu * cdSphere (rho * r * Dp / mu) = rho * Dp / mu * (r * cdSphere (rho * r * Dp / mu)) := fun r => by ring
    rw [e, e] at h1
    exact le_of_mul_le_mul_left h1 (by positivity)
  constructor
  · intro hle
    have h1 := mul_le_mul_of_nonneg_left (m hv hle) hv.le
    refine le_of_mul_le_mul_right ?_ hCx
    rw [e2, ← e1]
    linarith
  · intro hle
    have h1 := mul_le_mul_of_nonneg_left (m hx hle) hv.le
    refine le_of_mul_le_mul_right ?_ hCx
    rw [e2, ← e1]
    linarith

/-- **C130 (partial).** A terminal velocity returned by `vt_sphere` that is at least 1e-5 m/s is within 4e-6 m/s of the solution of the drag balance. Missing: that it
converges, and the accuracy of smaller values, which is refuted by `C130_colloid_false`. -/
theorem C130_accuracy_partial {g Dp rhop rho mu x v : ℝ} (hg : 0 < g) (hDp : 0 < Dp) (hr : rho < rhop) (hrho : 0 < rho) (hmu : 0 < mu)
    (h : vtSphere g Dp rhop rho mu = .ok x) (hx : 1e-5 ≤ x) (hv : Settles g Dp rhop rho mu v) : |x - v| ≤ 4e-6 := by
  have he : (0 : ℝ) < eps := by norm_num [eps]
  have he1 : (eps : ℝ) ≤ 2.3e-16 := by norm_num [eps]
  have hx0 : 0 < x := by linarith
  obtain ⟨a, a', b, ea, ha, ef, h1, h2⟩ := vtEq_near hg hDp hr hrho hmu (show 1e-9 ≤ x by linarith)
  obtain ⟨g1, g2⟩ := rhs_geom hg hDp hr hrho hmu hx0 hv ea
  have hcert := C86_certificate h
  rw [ef] at hcert
  simp only at hcert
  have hv0 := hv.1
  clear ef ea h hv
  have hk : 0 < a / x := by positivity
  have eax : 0.55 * (eps / x) * a = 0.55 * (a / x) * eps := by ring
  rw [eax] at h1 h2
  have hF : |x - a'| ≤ 1e-6 * (1 + 0.55 * (a / x)) := by
    rcases hcert with h3 | ⟨h3, h4⟩
    · nlinarith
    · have h5 : |(eps - b) / eps| ≤ 1 + 0.55 * (a / x) := by
        rw [abs_div, abs_of_pos he, div_le_iff₀ he]
        have := abs_sub eps b
        rw [abs_of_pos he] at this
        linarith
      rw [abs_div, div_le_iff₀ (lt_trans he h3)] at h4
      nlinarith
  have hA : |x - a| ≤ 1e-6 * (1 + 0.551 * (a / x)) := by
    have := abs_add_le (x - a') (a' - a)
    rw [sub_add_sub_cancel] at this
    nlinarith
  obtain ⟨k1, k2⟩ := abs_le.1 hA
  have hk2 : a / x ≤ 1e5 * a := by
    rw [div_le_iff₀ hx0]
    nlinarith
  have hax : a / x ≤ 1.17 := by
    rw [div_le_iff₀ hx0]
    nlinarith
  have hη : |x - a| ≤ 1.65e-6 := hA.trans (by linarith)
  obtain ⟨k1, k2⟩ := abs_le.1 hη
  clear hA hη hF hcert h1 h2
  rw [abs_le]
  rcases le_total v x with hvx | hvx
  · refine ⟨by linarith, ?_⟩
    have h5 := g1 hvx
    nlinarith [sq_nonneg (x - a)]
  · refine ⟨?_, by linarith⟩
    have h5 := g2 hvx
    have h6 : a ≤ x + 1.65e-6 := by linarith
    have h7 : x * v ≤ (x + 1.65e-6) ^ 2 := h5.trans (pow_le_pow_left₀ ha.le h6 2)
    nlinarith

end Verif.Flow
