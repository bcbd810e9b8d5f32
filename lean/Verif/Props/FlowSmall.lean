import Verif.Lemmas.FlowNewton
import Verif.Lemmas.Interval

/-!
# C130: `vt_sphere` for colloidal particles
-/

namespace Verif.Flow

open Real

theorem amp_bounds {a b c x d : ℝ} (ha : 0 < a) (hb : 0 ≤ b) (hd : 0 < d) (hd1 : d ≤ 1 / 1000) (hb1 : b ≤ d / 2 * a) (h1 : c * x / 1.191 ≤ a ^ 2 + b ^ 2)
    (h2 : a ^ 2 + b ^ 2 ≤ c * x * (1 + d ^ 2)) (hcx : 0 < c * x) : c * x ≤ 1.1911 * a ^ 2 ∧ a ^ 2 ≤ 1.000001 * (c * x) := by
  constructor
  · have hb2 : b ≤ a / 2000 := hb1.trans (by nlinarith)
    have : b ^ 2 ≤ (a / 2000) ^ 2 := pow_le_pow_left₀ hb hb2 2
    rw [div_le_iff₀ (by norm_num)] at h1
    nlinarith
  · have : d ^ 2 ≤ (1 / 1000) ^ 2 := pow_le_pow_left₀ hd.le hd1 2
    nlinarith [sq_nonneg b]

set_option maxHeartbeats 1000000 in
/-- **C130.** For every sphere with a Stokes velocity below 9 nm/s (and `rho Dp / mu ≤ 1 s/m`; for example any particle below 0.2 µm in water), `vt_sphere`
returns at least thirty times the Stokes velocity, which is an upper bound of the terminal velocity: the solver stops at an absolute residual of 1e-6 m/s. -/
theorem C130_colloid_false {g Dp rhop rho mu : ℝ} (hg : 0 < g) (hDp : 0 < Dp) (hr : rho < rhop) (hrho : 0 < rho) (hmu : 0 < mu) (hR : rho * Dp / mu ≤ 1)
    (hlo : 1e-20 ≤ vtStokes g Dp rhop rho mu) (hhi : vtStokes g Dp rhop rho mu ≤ 9e-9) :
    ∃ v, vtSphere g Dp rhop rho mu = .ok v ∧ 30 * vtStokes g Dp rhop rho mu ≤ v := by
  have he : (0 : ℝ) < eps := by norm_num [eps]
  have he1 : (eps : ℝ) ≤ 2.3e-16 := by norm_num [eps]
  have hR' : ∀ x, 0 < x → x ≤ 1 → rho * x * Dp / mu ≤ 1 := fun x h0 h1 => by
    rw [show rho * x * Dp / mu = rho * Dp / mu * x by ring]
    have : 0 < rho * Dp / mu := by positivity
    nlinarith
  have step := fun x (h0 : 0 < x) (h1 : x ≤ 1) (h2 : 1000 * eps ≤ x) => vtEq_step (x := x) hg hDp hr hrho hmu h0 (hR' x h0 h1) h2
  have fin : (∃ r, newtonLoop (vtEq g Dp rhop rho mu) 1e-6 1e-6 50 50 0 1 none 0 [] = .ok r ∧ r.1.success = true ∧ 30 * vtStokes g Dp rhop rho mu ≤ r.1.x) →
      ∃ v, vtSphere g Dp rhop rho mu = .ok v ∧ 30 * vtStokes g Dp rhop rho mu ≤ v := by
    rintro ⟨r, hr1, hr2, hr3⟩
    refine ⟨r.1.x, ?_, hr3⟩
    unfold vtSphere rootNewton
    rw [hr1, ok_bind, if_pos hr2]
    rfl
  apply fin
  clear fin hR'
  generalize vtStokes g Dp rhop rho mu = c at *
  generalize vtEq g Dp rhop rho mu = f at *
  have hc : 0 < c := lt_of_lt_of_le (by norm_num) hlo
  have hdx : ∀ x : ℝ, 0 < x → 1000 * eps ≤ x → 0 < (eps : ℝ) / x ∧ (eps : ℝ) / x ≤ 1 / 1000 := fun x h0 h1 => ⟨by positivity, by rw [div_le_iff₀ h0]; linarith⟩
  -- first pass, at 1
  obtain ⟨a, b, e, ha, hb, hb1, h1, h2⟩ := step 1 one_pos le_rfl (by linarith)
  obtain ⟨b1, b2⟩ := amp_bounds ha hb (hdx 1 one_pos (by linarith)).1 (hdx 1 one_pos (by linarith)).2 hb1 h1 h2 (by linarith)
  rw [mul_one] at b1 b2
  have ha1 : a ≤ 1e-4 := by
    by_contra hcon
    push Not at hcon
    nlinarith
  rcases newton_pass e one_pos ha hb hb1 (by linarith) 49 0 (by norm_num) none 0 [] with ⟨r, r1, r2, r3⟩ | ⟨-, x1, fx1, m1, c1, q1, q2, q3⟩
  · exact ⟨r, r1, r2, by rw [r3]; linarith⟩
  rw [q1]
  clear q1 e h1 h2 hb1
  have hx1 : 0 < x1 := by linarith
  have hx1a : x1 ≤ 1.0001 * a := by nlinarith
  have hx1lo : c ≤ 4.7645 * x1 ^ 2 := by nlinarith
  have hx1hi : x1 ^ 2 ≤ 1.0003 * c := by nlinarith
  have hx1e : 1e-12 ≤ x1 := by
    by_contra hcon
    push Not at hcon
    nlinarith
  have hx11 : x1 ≤ 2e-4 := by linarith
  have hx1c : 30 * c ≤ x1 := by
    have h3 : x1 * x1 ≤ x1 * 2e-4 := mul_le_mul_of_nonneg_left hx11 hx1.le
    linarith [sq x1]
  clear q2 q3 b1 b2 ha1 ha hb hx1a
  -- second pass
  obtain ⟨a, b, e, ha, hb, hb1, h1, h2⟩ := step x1 hx1 (by linarith) (by linarith)
  obtain ⟨b1, b2⟩ := amp_bounds ha hb (hdx x1 hx1 (by linarith)).1 (hdx x1 hx1 (by linarith)).2 hb1 h1 h2 (by positivity)
  have hax : a ≤ x1 / 50 := by
    by_contra hcon
    push Not at hcon
    have h3 : (x1 / 50) ^ 2 < a ^ 2 := pow_lt_pow_left₀ hcon (by positivity) (by norm_num)
    have h4 : (x1 / 50) ^ 2 < 1.000001 * (c * x1) := h3.trans_le b2
    have h5 : x1 * x1 < x1 * (2501 * c) := by nlinarith
    have h6 := lt_of_mul_lt_mul_left h5 hx1.le
    nlinarith
  rcases newton_pass e hx1 ha hb hb1 hax 48 1 (by norm_num) fx1 m1 c1 with ⟨r, r1, r2, r3⟩ | ⟨q0, x2, fx2, m2, c2, q1, q2, q3⟩
  · exact ⟨r, r1, r2, by rw [r3]; exact hx1c⟩
  rw [q1]
  clear q1 e h1 h2 hb1
  have hcl : 9e-13 ≤ c := by
    have h3 : (1e-6 : ℝ) ^ 2 ≤ x1 ^ 2 := pow_le_pow_left₀ (by norm_num) (by linarith) 2
    linarith
  have hx2 : 0 < x2 := by linarith
  have hβ : a / (2 * x1) ≤ 1 / 100 := by rw [div_le_div_iff₀ (by positivity) (by norm_num)]; linarith
  have hx2a : x2 ≤ 1.0102 * a := by nlinarith
  clear q3 hβ q0
  have hx2hi : x2 ^ 2 ≤ 1.021 * (c * x1) := by nlinarith
  have hx2lo : c * x1 ≤ 4.7645 * x2 ^ 2 := by nlinarith
  have hx4hi : (x2 ^ 2) ^ 2 ≤ 1.05 * c ^ 3 := by
    have : (x2 ^ 2) ^ 2 ≤ (1.021 * (c * x1)) ^ 2 := pow_le_pow_left₀ (by positivity) hx2hi 2
    have h3 : c ^ 2 * x1 ^ 2 ≤ c ^ 2 * (1.0003 * c) := mul_le_mul_of_nonneg_left hx1hi (by positivity)
    nlinarith
  have hx4lo : c ^ 3 ≤ 109 * (x2 ^ 2) ^ 2 := by
    have : (c * x1) ^ 2 ≤ (4.7645 * x2 ^ 2) ^ 2 := pow_le_pow_left₀ (by positivity) hx2lo 2
    have h3 : c ^ 2 * c ≤ c ^ 2 * (4.7645 * x1 ^ 2) := mul_le_mul_of_nonneg_left hx1lo (by positivity)
    nlinarith
  have hx2e : x2 ≤ 1e-6 := by
    by_contra hcon
    push Not at hcon
    have h3 : (1e-6 : ℝ) ^ 4 < x2 ^ 4 := pow_lt_pow_left₀ hcon (by norm_num) (by norm_num)
    have h4 : c ^ 3 ≤ (9e-9) ^ 3 := pow_le_pow_left₀ hc.le hhi 3
    have h5 : x2 ^ 4 = (x2 ^ 2) ^ 2 := by ring
    rw [h5] at h3
    have := h3.trans_le (hx4hi.trans (mul_le_mul_of_nonneg_left h4 (by norm_num)))
    norm_num at this
  have hx2c : 30 * c ≤ x2 := by
    by_contra hcon
    push Not at hcon
    have h3 : x2 ^ 4 < (30 * c) ^ 4 := pow_lt_pow_left₀ hcon hx2.le (by norm_num)
    have h4 : c ^ 3 < 109 * (30 * c) ^ 4 := by
      refine hx4lo.trans_lt ?_
      have h5 : x2 ^ 4 = (x2 ^ 2) ^ 2 := by ring
      linarith
    have h5 : c ^ 3 * 1 < c ^ 3 * (109 * 810000 * c) := by nlinarith
    have h6 := lt_of_mul_lt_mul_left h5 (by positivity)
    linarith
  have hx2l : 1000 * eps ≤ x2 := by linarith
  clear hx4hi hx4lo hx2hi hx2lo b1 b2 ha hb hax hx2a q2
  -- third pass
  obtain ⟨a, b, e, ha, hb, hb1, h1, h2⟩ := step x2 hx2 (by linarith) hx2l
  obtain ⟨b1, b2⟩ := amp_bounds ha hb (hdx x2 hx2 hx2l).1 (hdx x2 hx2 hx2l).2 hb1 h1 h2 (by positivity)
  have hax : a ≤ x2 := by
    by_contra hcon
    push Not at hcon
    nlinarith
  rw [newtonLoop]
  simp only [derivativeComplex, e]
  rw [if_pos (by rw [abs_of_nonneg (by linarith)]; linarith)]
  exact ⟨_, rfl, rfl, hx2c⟩

/-- A 200 nm PVC latex particle in water: the Stokes velocity is 8.7e-9 m/s. -/
example : ∃ v, vtSphere 9.80665 200e-9 1400 1000 1e-3 = .ok v ∧ 30 * vtStokes 9.80665 200e-9 1400 1000 1e-3 ≤ v :=
  C130_colloid_false (by norm_num) (by norm_num) (by norm_num) (by norm_num) (by norm_num) (by norm_num) (by unfold vtStokes; norm_num) (by unfold vtStokes; norm_num)

end Verif.Flow
