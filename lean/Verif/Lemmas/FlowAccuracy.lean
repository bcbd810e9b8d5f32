import Verif.Props.FlowRoots
import Mathlib.Analysis.SpecialFunctions.Complex.LogBounds

/-!
# Helper lemmas: the drag balance of `vt_sphere` near the real axis
-/

namespace Verif.Flow

open Real

theorem cpow_near {z : ℂ} {p : ℝ} (hz : ‖z‖ ≤ 1e-4) (hp : |p| ≤ 2) : ‖(1 + z) ^ (p : ℂ) - 1‖ ≤ 1.001 * |p| * ‖z‖ := by
  have h0 := norm_nonneg z
  have h1 : ‖Complex.log (1 + z)‖ ≤ 1.0001 * ‖z‖ := by
    refine (Complex.norm_log_one_add_le (by linarith)).trans ?_
    have h2 : (1 - ‖z‖)⁻¹ ≤ 2 := by
      rw [inv_le_comm₀ (by linarith) (by norm_num)]
      linarith
    have h3 : ‖z‖ ^ 2 * (1 - ‖z‖)⁻¹ ≤ ‖z‖ ^ 2 * 2 := mul_le_mul_of_nonneg_left h2 (by positivity)
    nlinarith
  have hne : (1 + z) ≠ 0 := by
    intro h
    have : z = -1 := by linear_combination h
    rw [this] at hz
    norm_num at hz
  rw [Complex.cpow_def_of_ne_zero hne]
  have h4 : ‖Complex.log (1 + z) * (p : ℂ)‖ ≤ 1.0001 * ‖z‖ * |p| := by
    rw [norm_mul, Complex.norm_real, norm_eq_abs]
    exact mul_le_mul_of_nonneg_right h1 (abs_nonneg p)
  have hp0 := abs_nonneg p
  have h5 : 1.0001 * ‖z‖ * |p| ≤ 3e-4 := by nlinarith
  generalize Complex.log (1 + z) * (p : ℂ) = w at *
  have h6 := Complex.norm_exp_sub_one_sub_id_le (h4.trans (h5.trans (by norm_num)))
  have h7 : ‖Complex.exp w - 1‖ ≤ ‖w‖ ^ 2 + ‖w‖ := by
    have := norm_add_le (Complex.exp w - 1 - w) w
    rw [sub_add_cancel] at this
    linarith
  have h8 := norm_nonneg w
  have h9 : 0 ≤ ‖z‖ * |p| := by positivity
  nlinarith

theorem cpow_mul_real {R : ℝ} {w : ℂ} (hR : 0 < R) (hw : w ≠ 0) (p : ℝ) : ((R : ℂ) * w) ^ (p : ℂ) = ((R ^ p : ℝ) : ℂ) * w ^ (p : ℂ) := by
  have hR' : (R : ℂ) ≠ 0 := by exact_mod_cast hR.ne'
  rw [Complex.cpow_def_of_ne_zero (mul_ne_zero hR' hw), Complex.cpow_def_of_ne_zero hw, Complex.log_ofReal_mul hR hw, add_mul, Complex.exp_add,
    Complex.ofReal_cpow hR.le, Complex.cpow_def_of_ne_zero hR', Complex.ofReal_log hR.le]

theorem inv_near {B : ℝ} {W : ℂ} (hB : 0 < B) {q : ℝ} (hq : q ≤ 1e-3) (hW : ‖W - 1‖ ≤ q) :
    ‖0.413 / (1 + (B : ℂ) * W) - ((0.413 / (1 + B) : ℝ) : ℂ)‖ ≤ 1.0011 * q * (0.413 / (1 + B)) := by
  have hq0 : 0 ≤ q := (norm_nonneg _).trans hW
  have hn : (1 + B) * 0.999 ≤ ‖1 + (B : ℂ) * W‖ := by
    have e : 1 + (B : ℂ) * W = ((1 + B : ℝ) : ℂ) - (-((B : ℂ) * (W - 1))) := by push_cast; ring
    have h1 := norm_sub_norm_le (((1 + B : ℝ) : ℂ)) (-((B : ℂ) * (W - 1)))
    rw [← e, Complex.norm_real, norm_of_nonneg (by linarith), norm_neg, norm_mul, Complex.norm_real, norm_of_nonneg hB.le] at h1
    have : B * ‖W - 1‖ ≤ B * 1e-3 := mul_le_mul_of_nonneg_left (hW.trans hq) hB.le
    linarith
  have hne : 1 + (B : ℂ) * W ≠ 0 := norm_pos_iff.1 (by linarith)
  have hne' : (1 + (B : ℂ)) ≠ 0 := by
    have : ((1 + B : ℝ) : ℂ) ≠ 0 := by exact_mod_cast (show (1 + B : ℝ) ≠ 0 by linarith)
    simpa using this
  have e : 0.413 / (1 + (B : ℂ) * W) - ((0.413 / (1 + B) : ℝ) : ℂ) = ((0.413 / (1 + B) : ℝ) : ℂ) * ((B : ℂ) * (-(W - 1)) / (1 + (B : ℂ) * W)) := by
    push_cast
    field_simp
    ring
  rw [e, norm_mul, Complex.norm_real, norm_of_nonneg (by positivity), mul_comm]
  refine mul_le_mul_of_nonneg_right ?_ (by positivity)
  rw [norm_div, norm_mul, norm_neg, Complex.norm_real, norm_of_nonneg hB.le, div_le_iff₀ (by linarith)]
  have h1 : B * ‖W - 1‖ ≤ B * q := mul_le_mul_of_nonneg_left hW hB.le
  have h2 : 1.0011 * q * ((1 + B) * 0.999) ≤ 1.0011 * q * ‖1 + (B : ℂ) * W‖ := mul_le_mul_of_nonneg_left hn (by positivity)
  have h3 : 0 ≤ q * B := by positivity
  nlinarith

/-- The drag coefficient at a slightly complex Reynolds number. -/
theorem cd_near {R : ℝ} {z : ℂ} (hR : 0 < R) (hz : ‖z‖ ≤ 1e-5) :
    ‖24 / ((R : ℂ) * (1 + z)) * (1 + 0.173 * ((R : ℂ) * (1 + z)) ^ (0.657 : ℂ)) + 0.413 / (1 + 16300 * ((R : ℂ) * (1 + z)) ^ (-1.09 : ℂ)) - (cdSphere R : ℂ)‖ ≤
      1.094 * ‖z‖ * cdSphere R := by
  have hw : (1 + z) ≠ 0 := by
    intro h
    have : z = -1 := by linear_combination h
    rw [this] at hz
    norm_num at hz
  have hR' : (R : ℂ) ≠ 0 := by exact_mod_cast hR.ne'
  have hz0 := norm_nonneg z
  have p1 := rpow_pos_of_pos hR (0.657 : ℝ)
  have p2 := rpow_pos_of_pos hR (-1.09 : ℝ)
  have e1 := cpow_mul_real hR hw 0.657
  have e2 := cpow_mul_real hR hw (-1.09)
  have n1 := cpow_near (z := z) (p := -1) (by linarith) (by norm_num)
  have n2 := cpow_near (z := z) (p := -0.343) (by linarith) (by norm_num [abs_of_neg])
  have n3 := cpow_near (z := z) (p := -1.09) (by linarith) (by norm_num [abs_of_neg])
  rw [show |(-1 : ℝ)| = 1 by norm_num] at n1
  rw [show |(-0.343 : ℝ)| = 0.343 by norm_num [abs_of_neg]] at n2
  rw [show |(-1.09 : ℝ)| = 1.09 by norm_num [abs_of_neg]] at n3
  have e3 : (1 + z) ^ ((-0.343 : ℝ) : ℂ) = (1 + z)⁻¹ * (1 + z) ^ ((0.657 : ℝ) : ℂ) := by
    rw [← Complex.cpow_neg_one, ← Complex.cpow_add _ _ hw]
    congr 1
    push_cast
    norm_num
  have e4 : (1 + z) ^ ((-1 : ℝ) : ℂ) = (1 + z)⁻¹ := by
    rw [← Complex.cpow_neg_one]
    congr 1
    push_cast
    rfl
  rw [e4] at n1
  rw [show (0.657 : ℂ) = ((0.657 : ℝ) : ℂ) by push_cast; norm_num, show (-1.09 : ℂ) = ((-1.09 : ℝ) : ℂ) by push_cast; norm_num, e1, e2]
  have n4 := inv_near (B := 16300 * R ^ (-1.09 : ℝ)) (by positivity) (q := 1.001 * 1.09 * ‖z‖) (by linarith) n3
  have e5 : 24 / ((R : ℂ) * (1 + z)) * (1 + 0.173 * (((R ^ (0.657 : ℝ) : ℝ) : ℂ) * (1 + z) ^ ((0.657 : ℝ) : ℂ))) +
        0.413 / (1 + 16300 * (((R ^ (-1.09 : ℝ) : ℝ) : ℂ) * (1 + z) ^ ((-1.09 : ℝ) : ℂ))) - (cdSphere R : ℂ) =
      ((24 / R : ℝ) : ℂ) * ((1 + z)⁻¹ - 1) + ((24 / R * (0.173 * R ^ (0.657 : ℝ)) : ℝ) : ℂ) * ((1 + z) ^ ((-0.343 : ℝ) : ℂ) - 1) +
        (0.413 / (1 + ((16300 * R ^ (-1.09 : ℝ) : ℝ) : ℂ) * (1 + z) ^ ((-1.09 : ℝ) : ℂ)) - ((0.413 / (1 + 16300 * R ^ (-1.09 : ℝ)) : ℝ) : ℂ)) := by
    rw [e3]
    have ec : (cdSphere R : ℂ) = ((24 / R : ℝ) : ℂ) + ((24 / R * (0.173 * R ^ (0.657 : ℝ)) : ℝ) : ℂ) + ((0.413 / (1 + 16300 * R ^ (-1.09 : ℝ)) : ℝ) : ℂ) := by
      unfold cdSphere
      rw [← Complex.ofReal_add, ← Complex.ofReal_add]
      congr 1
      ring
    rw [ec]
    generalize ((0.413 / (1 + 16300 * R ^ (-1.09 : ℝ)) : ℝ) : ℂ) = c3
    rw [Complex.ofReal_mul 16300]
    generalize hD : 1 + ((16300 : ℝ) : ℂ) * ((R ^ (-1.09 : ℝ) : ℝ) : ℂ) * (1 + z) ^ ((-1.09 : ℝ) : ℂ) = D
    rw [show 1 + 16300 * (((R ^ (-1.09 : ℝ) : ℝ) : ℂ) * (1 + z) ^ ((-1.09 : ℝ) : ℂ)) = D by rw [← hD, ← mul_assoc]; push_cast; rfl]
    generalize (1 + z) ^ ((0.657 : ℝ) : ℂ) = W
    rw [Complex.ofReal_mul (24 / R), Complex.ofReal_mul 0.173]
    generalize ((R ^ (0.657 : ℝ) : ℝ) : ℂ) = P
    have e6 : ((24 / R : ℝ) : ℂ) = 24 / (R : ℂ) := by push_cast; rfl
    have e7 : ((0.173 : ℝ) : ℂ) = 0.173 := by push_cast; norm_num
    rw [e6, e7]
    field_simp
    ring
  rw [e5]
  have c1 : 0 < 24 / R := by positivity
  have c2 : 0 < 24 / R * (0.173 * R ^ (0.657 : ℝ)) := by positivity
  have c3 : 0 < 0.413 / (1 + 16300 * R ^ (-1.09 : ℝ)) := by positivity
  have m1 : ‖((24 / R : ℝ) : ℂ) * ((1 + z)⁻¹ - 1)‖ ≤ 24 / R * (1.001 * 1 * ‖z‖) := by
    rw [norm_mul, Complex.norm_real, norm_of_nonneg c1.le]
    exact mul_le_mul_of_nonneg_left n1 c1.le
  have m2 : ‖((24 / R * (0.173 * R ^ (0.657 : ℝ)) : ℝ) : ℂ) * ((1 + z) ^ ((-0.343 : ℝ) : ℂ) - 1)‖ ≤ 24 / R * (0.173 * R ^ (0.657 : ℝ)) * (1.001 * 0.343 * ‖z‖) := by
    rw [norm_mul, Complex.norm_real, norm_of_nonneg c2.le]
    exact mul_le_mul_of_nonneg_left n2 c2.le
  refine (norm_add_le _ _).trans ((add_le_add ((norm_add_le _ _).trans (add_le_add m1 m2)) n4).trans ?_)
  have ec : cdSphere R = 24 / R + 24 / R * (0.173 * R ^ (0.657 : ℝ)) + 0.413 / (1 + 16300 * R ^ (-1.09 : ℝ)) := by
    unfold cdSphere
    ring
  rw [ec]
  clear * - hz0 c1 c2 c3
  generalize 24 / R * (0.173 * R ^ (0.657 : ℝ)) = a2 at *
  generalize 0.413 / (1 + 16300 * R ^ (-1.09 : ℝ)) = a3 at *
  generalize 24 / R = a1 at *
  have q1 := mul_nonneg hz0 c1.le
  have q2 := mul_nonneg hz0 c2.le
  have q3 := mul_nonneg hz0 c3.le
  nlinarith

/-- The square root in the drag balance at a slightly complex velocity. -/
theorem root_near {K c : ℝ} {C : ℂ} (hK : 0 < K) (hc : 0 < c) {q : ℝ} (hq : q ≤ 2e-5) (hC : ‖C - c‖ ≤ q * c) : ‖((K : ℂ) / C) ^ (1 / 2 : ℂ) - (√(K / c) : ℝ)‖ ≤ 0.501 * q * √(K / c) := by
  have hq0 : 0 ≤ q := by
    have := (norm_nonneg _).trans hC
    exact nonneg_of_mul_nonneg_left this hc
  have hc' : (c : ℂ) ≠ 0 := by exact_mod_cast hc.ne'
  have hn : c * (1 - 2e-5) ≤ ‖C‖ := by
    have := norm_sub_norm_le (c : ℂ) ((c : ℂ) - C)
    rw [sub_sub_cancel, norm_sub_rev, Complex.norm_real, norm_of_nonneg hc.le] at this
    nlinarith
  have hC0 : C ≠ 0 := norm_pos_iff.1 (by nlinarith)
  have e : (K : ℂ) / C = ((K / c : ℝ) : ℂ) * (1 + ((c : ℂ) - C) / C) := by
    push_cast
    field_simp
    ring
  have hz : ‖((c : ℂ) - C) / C‖ ≤ 1.0001 * q := by
    rw [norm_div, norm_sub_rev, div_le_iff₀ (norm_pos_iff.2 hC0)]
    have : 1.0001 * q * (c * (1 - 2e-5)) ≤ 1.0001 * q * ‖C‖ := mul_le_mul_of_nonneg_left hn (by positivity)
    have : 0 ≤ q * c := by positivity
    nlinarith
  have hw : 1 + ((c : ℂ) - C) / C ≠ 0 := by
    rw [show 1 + ((c : ℂ) - C) / C = (c : ℂ) / C by field_simp; ring]
    exact div_ne_zero hc' hC0
  have h12 : (1 / 2 : ℂ) = ((1 / 2 : ℝ) : ℂ) := by push_cast; rfl
  rw [e, h12, cpow_mul_real (by positivity) hw, ← sqrt_eq_rpow]
  have h1 := cpow_near (z := ((c : ℂ) - C) / C) (p := 1 / 2) (by linarith) (by norm_num)
  rw [show ∀ a b : ℂ, a * b - a = a * (b - 1) from fun a b => by ring, norm_mul, Complex.norm_real, norm_of_nonneg (sqrt_nonneg _), mul_comm]
  refine mul_le_mul_of_nonneg_right (h1.trans ?_) (sqrt_nonneg _)
  rw [show |(1 / 2 : ℝ)| = 1 / 2 by norm_num]
  linarith

/-- What the solver sees at a velocity `x` of at least 1e-9 m/s. -/
theorem vtEq_near {g Dp rhop rho mu x : ℝ} (hg : 0 < g) (hDp : 0 < Dp) (hr : rho < rhop) (hrho : 0 < rho) (hmu : 0 < mu) (hx : 1e-9 ≤ x) :
    ∃ a a' b, a = √(4 * Dp * g * (rhop - rho) / (3 * cdSphere (rho * x * Dp / mu) * rho)) ∧ 0 < a ∧ vtEq g Dp rhop rho mu (x, eps) = (x - a', eps - b) ∧
      |a' - a| ≤ 0.55 * (eps / x) * a ∧ |b| ≤ 0.55 * (eps / x) * a := by
  have he : (0 : ℝ) < eps := by norm_num [eps]
  have he1 : (eps : ℝ) ≤ 2.3e-16 := by norm_num [eps]
  have hx0 : 0 < x := by linarith
  have hd : 0 < eps / x := by positivity
  have hd1 : eps / x ≤ 1e-5 := by rw [div_le_iff₀ hx0]; linarith
  have hR : 0 < rho * x * Dp / mu := by positivity
  have hΔ : 0 < rhop - rho := by linarith
  have eRep : (rho * toC (x, eps) * Dp / mu : ℂ) = ((rho * x * Dp / mu : ℝ) : ℂ) * (1 + ((eps / x : ℝ) : ℂ) * Complex.I) := by
    have : toC (x, eps) = (x : ℂ) + (eps : ℝ) * Complex.I := by apply Complex.ext <;> simp [toC]
    have hx' : (x : ℂ) ≠ 0 := by exact_mod_cast hx0.ne'
    rw [this]
    push_cast
    field_simp
  have hz : ‖((eps / x : ℝ) : ℂ) * Complex.I‖ = eps / x := by rw [norm_mul, Complex.norm_I, Complex.norm_real, norm_of_nonneg hd.le, mul_one]
  have hcd : 0 < cdSphere (rho * x * Dp / mu) := lt_trans (by positivity) (cdSphere_pos hR)
  have h1 := cd_near hR (z := ((eps / x : ℝ) : ℂ) * Complex.I) (by rw [hz]; exact hd1)
  rw [hz] at h1
  unfold vtEq
  simp only [eRep]
  generalize 24 / (((rho * x * Dp / mu : ℝ) : ℂ) * (1 + ((eps / x : ℝ) : ℂ) * Complex.I)) * (1 + 0.173 * (((rho * x * Dp / mu : ℝ) : ℂ) * (1 + ((eps / x : ℝ) : ℂ) * Complex.I)) ^ (0.657 : ℂ)) +
    0.413 / (1 + 16300 * (((rho * x * Dp / mu : ℝ) : ℂ) * (1 + ((eps / x : ℝ) : ℂ) * Complex.I)) ^ (-1.09 : ℂ)) = C at h1 ⊢
  generalize cdSphere (rho * x * Dp / mu) = c at *
  have hrho' : (rho : ℂ) ≠ 0 := by exact_mod_cast hrho.ne'
  have hC0 : C ≠ 0 := by
    rintro rfl
    rw [zero_sub, norm_neg, Complex.norm_real, norm_of_nonneg hcd.le] at h1
    nlinarith
  have ew : ((4 * Dp * g * (rhop - rho) : ℝ) : ℂ) / (3 * C * rho) = ((4 * Dp * g * (rhop - rho) / (3 * rho) : ℝ) : ℂ) / C := by
    push_cast
    field_simp
  have ew' : 4 * Dp * g * (rhop - rho) / (3 * c * rho) = 4 * Dp * g * (rhop - rho) / (3 * rho) / c := by field_simp
  rw [ew, ew']
  have hK : 0 < 4 * Dp * g * (rhop - rho) / (3 * rho) := by positivity
  generalize 4 * Dp * g * (rhop - rho) / (3 * rho) = K at *
  have h2 := root_near hK hcd (q := 1.094 * (eps / x)) (by linarith) h1
  have ha : 0 < √(K / c) := sqrt_pos.2 (by positivity)
  have h3 : 0.501 * (1.094 * (eps / x)) * √(K / c) ≤ 0.55 * (eps / x) * √(K / c) := mul_le_mul_of_nonneg_right (by linarith) ha.le
  refine ⟨_, (((K : ℂ) / C) ^ (1 / 2 : ℂ)).re, (((K : ℂ) / C) ^ (1 / 2 : ℂ)).im, rfl, ha, ?_, ?_, ?_⟩
  · simp only [toC, Complex.sub_re, Complex.sub_im]
  · have := (Complex.abs_re_le_norm _).trans (h2.trans h3)
    simpa using this
  · have := (Complex.abs_im_le_norm _).trans (h2.trans h3)
    simpa using this

end Verif.Flow
