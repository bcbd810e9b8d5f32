import Verif.Lemmas.FlowGlobal
import Verif.Props.FlowConverges

/-!
# C130: `vt_sphere` converges at every Reynolds number
-/

namespace Verif.Flow

open Real

/-- The right-hand side of the balance and its argument, on logarithmic scales. -/
theorem settles_logs {g Dp rhop rho mu x v a : ℝ} (hg : 0 < g) (hDp : 0 < Dp) (hr : rho < rhop) (hrho : 0 < rho) (hmu : 0 < mu) (hx : 0 < x) (h : Settles g Dp rhop rho mu v)
    (ha : a = √(4 * Dp * g * (rhop - rho) / (3 * cdSphere (rho * x * Dp / mu) * rho))) (ha0 : 0 < a) :
    log (x / v) = log (rho * x * Dp / mu) - log (rho * v * Dp / mu) ∧
      log (a / v) = (log (cdSphere (rho * v * Dp / mu)) - log (cdSphere (rho * x * Dp / mu))) / 2 := by
  obtain ⟨hv, hv2⟩ := h
  have hd : 0 < rhop - rho := by linarith
  have hCx : 0 < cdSphere (rho * x * Dp / mu) := lt_of_lt_of_le (by norm_num) (cd_ge367 (by positivity))
  have hCv : 0 < cdSphere (rho * v * Dp / mu) := lt_of_lt_of_le (by norm_num) (cd_ge367 (by positivity))
  constructor
  · rw [← log_div (by positivity) (by positivity)]
    congr 1
    field_simp
  · have key : ∀ C : ℝ, 0 < C → log (√(4 * Dp * g * (rhop - rho) / (3 * C * rho))) = (log (4 * Dp * g * (rhop - rho) / (3 * rho)) - log C) / 2 := fun C hC => by
      rw [log_sqrt (by positivity), ← log_div (by positivity) hC.ne']
      congr 2
      field_simp
    have e1 := key _ hCx
    have e2 := key _ hCv
    rw [← ha] at e1
    rw [← hv2] at e2
    rw [log_div ha0.ne' hv.ne', e1, e2]
    ring

/-- One pass of the loop of `vt_sphere`: what Newton's method does with a right-hand side and a slope known within `d` also holds of the loop. -/
theorem vt_pass_gen {g Dp rhop rho mu x v d : ℝ} (hg : 0 < g) (hDp : 0 < Dp) (hr : rho < rhop) (hrho : 0 < rho) (hmu : 0 < mu)
    (h : Settles g Dp rhop rho mu v) (hx : 1.2e-5 ≤ x) (hd : 18 * (eps / x) ≤ d) (P : ℝ → Prop)
    (core : ∀ y c c' k u, y = log (rho * x * Dp / mu) - log (rho * v * Dp / mu) → c = (log (cdSphere (rho * v * Dp / mu)) - log (cdSphere (rho * x * Dp / mu))) / 2 → y = log (x / v) →
      |c' - c| ≤ d → |k - cdS (rho * x * Dp / mu) / (2 * cdSphere (rho * x * Dp / mu))| ≤ d → u = 1 - exp (-(y - c')) →
      k < 1 ∧ 0 < 1 + k / (1 - k) * u ∧ 0.001 ≤ (1 - k) * (1 + k / (1 - k) * u) ∧ P (c' - log (1 + k / (1 - k) * u)))
    (n k : ℕ) (hk : k + 1 < 50) (fx : Option ℝ) (m : ℕ) (calls : List (ℝ × ℝ)) :
    (∃ r, newtonLoop (vtEq g Dp rhop rho mu) 1e-6 1e-6 50 (n + 1) k x fx m calls = .ok r ∧ r.1.success = true ∧ r.1.x = x) ∨
      (∃ x' fx' m' calls', newtonLoop (vtEq g Dp rhop rho mu) 1e-6 1e-6 50 (n + 1) k x fx m calls =
        newtonLoop (vtEq g Dp rhop rho mu) 1e-6 1e-6 50 n (k + 1) x' fx' m' calls' ∧ 0 < x' ∧ P (log (x' / v)) ∧ 1e-6 < |x - x'|) := by
  have he : (0 : ℝ) < eps := by norm_num [eps]
  have he1 : (eps : ℝ) ≤ 2.3e-16 := by norm_num [eps]
  have hv0 := h.1
  have hx0 : 0 < x := by linarith
  obtain ⟨a, a', b, ea, ha, ef, n1, n2⟩ := vtEq_lin hg hDp hr hrho hmu (show 1e-9 ≤ x by linarith)
  obtain ⟨e1, e2⟩ := settles_logs hg hDp hr hrho hmu hx0 h ea ha
  have hRx : 0 < rho * x * Dp / mu := by positivity
  have hκ := cdS_bounds hRx
  have hcd : 0 < cdSphere (rho * x * Dp / mu) := lt_of_lt_of_le (by norm_num) (cd_ge367 hRx)
  have hκ1 : |cdS (rho * x * Dp / mu) / (2 * cdSphere (rho * x * Dp / mu))| ≤ 0.55 := by
    rw [abs_div, abs_of_pos (show 0 < 2 * cdSphere (rho * x * Dp / mu) by positivity), div_le_iff₀ (by positivity)]
    linarith [hκ.1]
  clear ea
  have core := core _ _ (log (a' / v)) (b * x / (eps * a')) (1 - a' / x) e1 e2 rfl
  generalize hKe : cdS (rho * x * Dp / mu) / (2 * cdSphere (rho * x * Dp / mu)) = κ at *
  clear hκ hcd e1 e2 hKe
  have hd0 : 0 < eps / x := by positivity
  have hd1 : eps / x ≤ 2e-11 := by rw [div_le_iff₀ hx0]; linarith
  have hsq : 17 * (eps / x) ^ 2 ≤ 1e-3 * (eps / x) := by nlinarith
  have n3 : |a' - a| ≤ 1e-3 * (eps / x) * a := n1.trans (mul_le_mul_of_nonneg_right hsq ha.le)
  obtain ⟨n4, n5⟩ := abs_le.1 n3
  have hqa : (eps / x) * a ≤ 2e-11 * a := mul_le_mul_of_nonneg_right hd1 ha.le
  have ha2 : 0 < a' := by linarith
  have hqa2 : (eps / x) * a ≤ 2 * (eps / x) * a' := by nlinarith
  have hcc : |log (a' / v) - log (a / v)| ≤ d := by
    rw [log_div ha2.ne' hv0.ne', log_div ha.ne' hv0.ne']
    have h1 := log_le_sub_one_of_pos (show 0 < a' / a by positivity)
    have h2 := log_le_sub_one_of_pos (show 0 < a / a' by positivity)
    rw [log_div ha2.ne' ha.ne'] at h1
    rw [log_div ha.ne' ha2.ne'] at h2
    have h3 : a' / a ≤ 1 + eps / x := by rw [div_le_iff₀ ha]; linarith
    have h4 : a / a' ≤ 1 + eps / x := by rw [div_le_iff₀ ha2]; linarith
    exact abs_le.2 ⟨by linarith, by linarith⟩
  -- the slope
  have hκ2 : |b * x / (eps * a') - κ| ≤ d := by
    have h1 : b * x / (eps * a') - κ = (b - κ * (eps / x) * a) * (x / (eps * a')) + κ * ((a - a') / a') := by
      field_simp
      ring
    rw [h1]
    have h2 : |(b - κ * (eps / x) * a) * (x / (eps * a'))| ≤ 17.1 * (eps / x) := by
      rw [abs_mul, abs_of_pos (show 0 < x / (eps * a') by positivity)]
      have h3 : |b - κ * (eps / x) * a| * (x / (eps * a')) ≤ 17 * (eps / x) ^ 2 * a * (x / (eps * a')) := mul_le_mul_of_nonneg_right n2 (by positivity)
      have h4 : 17 * (eps / x) ^ 2 * a * (x / (eps * a')) = 17 * (eps / x) * (a / a') := by field_simp
      have h5 : a / a' ≤ 1.0001 := by rw [div_le_iff₀ ha2]; linarith
      have h6 : 17 * (eps / x) * (a / a') ≤ 17 * (eps / x) * 1.0001 := mul_le_mul_of_nonneg_left h5 (by positivity)
      linarith
    have h3 : |κ * ((a - a') / a')| ≤ 0.1 * (eps / x) := by
      rw [abs_mul]
      have h4 : |(a - a') / a'| ≤ 0.1 * (eps / x) := by
        rw [abs_div, abs_of_pos ha2, div_le_iff₀ ha2, abs_sub_comm]
        linarith
      calc |κ| * |(a - a') / a'| ≤ 0.55 * (0.1 * (eps / x)) := mul_le_mul hκ1 h4 (abs_nonneg _) (by norm_num)
        _ ≤ 0.1 * (eps / x) := by linarith
    exact (abs_add_le _ _).trans (by linarith)
  have hu : 1 - a' / x = 1 - exp (-(log (x / v) - log (a' / v))) := by
    rw [neg_sub, exp_sub, exp_log (by positivity), exp_log (by positivity)]
    field_simp
  obtain ⟨w1, w2, w3, w4⟩ := core hcc hκ2 hu
  clear core hκ2 hκ1 n1 n2 n3 n4 n5 hcc hu hsq hqa hqa2
  have hβ : b / eps = b * x / (eps * a') * (a' / x) := by field_simp
  generalize b * x / (eps * a') = κ' at *
  have hk1 : 0 < 1 - κ' := by linarith
  have eF : 1 - b / eps = (1 - κ') * (1 + κ' / (1 - κ') * (1 - a' / x)) := by
    rw [hβ]
    field_simp
    ring
  have hF : 0.001 ≤ 1 - b / eps := by
    rw [eF]
    exact w3
  have ex : x - (x - a') / (1 - b / eps) = a' / (1 + κ' / (1 - κ') * (1 - a' / x)) := by
    have h1 : x - (x - a') / (1 - b / eps) = (a' - b / eps * x) / (1 - b / eps) := by
      rw [eq_div_iff (by linarith), sub_mul, div_mul_cancel₀ _ (by linarith)]
      ring
    have h2 : a' - b / eps * x = (1 - κ') * a' := by
      rw [hβ]
      field_simp
    rw [h1, h2, eF, mul_div_mul_left _ _ hk1.ne']
  clear w3
  generalize 1 + κ' / (1 - κ') * (1 - a' / x) = F at *
  have el : log (a' / F / v) = log (a' / v) - log F := by
    rw [log_div (by positivity) hv0.ne', log_div ha2.ne' w2.ne', log_div ha2.ne' hv0.ne']
    ring
  rw [← el] at w4
  rw [newtonLoop]
  simp only [derivativeComplex, ef]
  have eD : (eps - b) / eps = 1 - b / eps := by field_simp
  rw [eD]
  clear hβ eF eD ef
  generalize b / eps = β at *
  by_cases g1 : |x - a'| ≤ 1e-6
  · left
    rw [if_pos g1]
    exact ⟨_, rfl, rfl, rfl⟩
  rw [if_neg g1, if_neg (by rw [abs_of_pos (by linarith)]; linarith)]
  by_cases g2 : |-(x - a') / (1 - β)| ≤ 1e-6
  · left
    rw [if_pos g2]
    exact ⟨_, rfl, rfl, rfl⟩
  right
  rw [if_neg g2, if_pos hk]
  refine ⟨a' / F, _, _, _, by rw [neg_div, ← sub_eq_add_neg, ex], by positivity, w4, ?_⟩
  rw [← ex, sub_sub_cancel]
  rwa [not_le, neg_div, abs_neg] at g2

/-- One pass of the loop of `vt_sphere`. -/
theorem vt_pass_all {g Dp rhop rho mu x v : ℝ} (hg : 0 < g) (hDp : 0 < Dp) (hr : rho < rhop) (hrho : 0 < rho) (hmu : 0 < mu)
    (h : Settles g Dp rhop rho mu v) (hv : 2e-5 ≤ v) (hx : 0 < x) (i1 : -0.45 ≤ log (x / v)) (i2 : rho * v * Dp / mu ≤ 100 → -0.29 ≤ log (x / v))
    (n k : ℕ) (hk : k + 1 < 50) (fx : Option ℝ) (m : ℕ) (calls : List (ℝ × ℝ)) :
    (∃ r, newtonLoop (vtEq g Dp rhop rho mu) 1e-6 1e-6 50 (n + 1) k x fx m calls = .ok r ∧ r.1.success = true ∧ r.1.x = x) ∨
      (∃ x' fx' m' calls', newtonLoop (vtEq g Dp rhop rho mu) 1e-6 1e-6 50 (n + 1) k x fx m calls =
        newtonLoop (vtEq g Dp rhop rho mu) 1e-6 1e-6 50 n (k + 1) x' fx' m' calls' ∧ 0 < x' ∧ (-0.45 ≤ log (x' / v) ∧ (rho * v * Dp / mu ≤ 100 → -0.29 ≤ log (x' / v)) ∧
        max (log (x' / v)) (-1.2 * log (x' / v)) ≤ 0.72 * max (log (x / v)) (-1.2 * log (x / v)) + 2e-8) ∧ 1e-6 < |x - x'|) := by
  have he : (0 : ℝ) < eps := by norm_num [eps]
  have he1 : (eps : ℝ) ≤ 2.3e-16 := by norm_num [eps]
  have hv0 := h.1
  have hxv : 0.63 * v ≤ x := by
    have h1 : log 0.63 ≤ log (x / v) := le_trans (by iv) i1
    have h2 := (log_le_log_iff (by norm_num) (by positivity)).1 h1
    rwa [le_div_iff₀ hv0] at h2
  have hd : eps / x ≤ 1.9e-11 := by rw [div_le_iff₀ hx]; linarith
  refine vt_pass_gen (d := 5e-10) hg hDp hr hrho hmu h (by linarith) (by linarith)
    (fun y' => -0.45 ≤ y' ∧ (rho * v * Dp / mu ≤ 100 → -0.29 ≤ y') ∧ max y' (-1.2 * y') ≤ 0.72 * max (log (x / v)) (-1.2 * log (x / v)) + 2e-8) ?_ n k hk fx m calls
  intro y c c' k u hy hc hyx hcc hk hu
  rw [← hyx] at i1 i2 ⊢
  obtain ⟨w1, w2, w3, w4, w5, w6⟩ := newton_core (show 0 < rho * v * Dp / mu by positivity) (show 0 < rho * x * Dp / mu by positivity) hy hc (hcc.trans (by norm_num)) hk i1 i2 hu
  refine ⟨by linarith, by linarith, ?_, w3, w4, max_le w5 w6⟩
  have : 0.49 * 0.5 ≤ (1 - k) * (1 + k / (1 - k) * u) := mul_le_mul (by linarith) w2 (by norm_num) (by linarith)
  linarith

/-- An iterate close to the root. -/
theorem near_root {x v w : ℝ} (hx : 0 < x) (hv : 0 < v) (hw : max (log (x / v)) (-1.2 * log (x / v)) ≤ w) (hw1 : w ≤ 1e-4) : |x - v| ≤ 1.001 * v * w := by
  have h1 := (le_max_left _ _).trans hw
  have h2 := (le_max_right _ _).trans hw
  have hw0 : 0 ≤ w := by
    rcases le_total 0 (log (x / v)) with h | h <;> linarith
  have h3 := log_le_sub_one_of_pos (show 0 < v / x by positivity)
  have e1 : log (v / x) = -log (x / v) := by rw [← log_inv, inv_div]
  have h4 := one_sub_inv_le_log_of_pos (show 0 < x / v by positivity)
  have h5 := log_le_sub_one_of_pos (show 0 < x / v by positivity)
  have e2 : x / v * v = x := by field_simp
  rw [inv_div] at h4
  have e3 : v / x * x = v := by field_simp
  -- `1 - v/x ≤ w` and `-w ≤ x/v - 1`
  have k1 : (1 - v / x) * x ≤ w * x := mul_le_mul_of_nonneg_right (by linarith) hx.le
  have k2 : -w * v ≤ (x / v - 1) * v := mul_le_mul_of_nonneg_right (by linarith) hv.le
  have k3 : x * (1 - w) ≤ v := by linarith
  have k4 : x ≤ 1.0002 * v := by nlinarith
  have k5 : w * x ≤ w * (1.0002 * v) := mul_le_mul_of_nonneg_left k4 hw0
  have k6 : 0 ≤ w * v := by positivity
  exact abs_le.2 ⟨by linarith, by linarith⟩

/-- The loop of `vt_sphere`, from the pass `k`. -/
theorem vt_loop_all {g Dp rhop rho mu v : ℝ} (hg : 0 < g) (hDp : 0 < Dp) (hr : rho < rhop) (hrho : 0 < rho) (hmu : 0 < mu)
    (h : Settles g Dp rhop rho mu v) (hv : 2e-5 ≤ v) (hv1 : v ≤ 1.33) : ∀ (j k : ℕ) (x : ℝ), k + j = 48 → 0 < x → -0.45 ≤ log (x / v) → (rho * v * Dp / mu ≤ 100 → -0.29 ≤ log (x / v)) →
      max (log (x / v)) (-1.2 * log (x / v)) ≤ 0.72 ^ k * max (-log v) (1.2 * log v) + 1e-7 → ∀ fx m calls,
      ∃ r, newtonLoop (vtEq g Dp rhop rho mu) 1e-6 1e-6 50 (j + 2) k x fx m calls = .ok r ∧ r.1.success = true ∧ 0.63 * v ≤ r.1.x := by
  have hv0 := h.1
  have low : ∀ {x : ℝ}, 0 < x → -0.45 ≤ log (x / v) → 0.63 * v ≤ x := fun {x} hx hy => by
    have h1 : log 0.63 ≤ log (x / v) := le_trans (by iv) hy
    have h2 := (log_le_log_iff (by norm_num) (by positivity)).1 h1
    rwa [le_div_iff₀ hv0] at h2
  intro j
  induction j with
  | zero =>
    intro k x hk hx i1 i2 hB fx m calls
    have hk48 : k = 48 := by omega
    subst hk48
    rcases vt_pass_all hg hDp hr hrho hmu h hv hx i1 i2 1 48 (by norm_num) fx m calls with ⟨r, r1, r2, r3⟩ | ⟨x', -, -, -, -, x1, ⟨-, -, x2⟩, x3⟩
    · exact ⟨r, r1, r2, by rw [r3]; exact low hx i1⟩
    · exfalso
      have hvY : v * max (-log v) (1.2 * log v) ≤ 0.5 := by
        rcases max_cases (-log v) (1.2 * log v) with ⟨e, -⟩ | ⟨e, h9⟩ <;> rw [e]
        · have h1 := add_one_le_exp (-log v - 1)
          rw [exp_sub, exp_neg, exp_log hv0] at h1
          have h2 : v * -log v ≤ v * (v⁻¹ / exp 1) := mul_le_mul_of_nonneg_left (by linarith) hv0.le
          have h3 : v * (v⁻¹ / exp 1) = 1 / exp 1 := by field_simp
          have h4 : 1 / exp 1 ≤ 0.368 := by
            rw [div_le_iff₀ (exp_pos 1)]
            have := exp_one_gt_d9
            linarith
          linarith
        · have h1 : log v ≤ log 1.33 := log_le_log hv0 hv1
          have h2 : log 1.33 ≤ 0.286 := by iv
          have : v * (1.2 * log v) ≤ 1.33 * (1.2 * 0.286) := mul_le_mul hv1 (by linarith) (by linarith) (by norm_num)
          linarith
      have hY11 : max (-log v) (1.2 * log v) ≤ 11 := by
        have h1 : log 2e-5 ≤ log v := log_le_log (by norm_num) hv
        have h2 : (-11 : ℝ) ≤ log 2e-5 := by iv
        have h3 : log v ≤ log 1.33 := log_le_log hv0 hv1
        have h4 : log 1.33 ≤ 0.286 := by iv
        exact max_le (by linarith) (by linarith)
      have hY0 : 0 ≤ max (-log v) (1.2 * log v) := by
        rcases le_total 0 (log v) with h1 | h1
        · exact le_trans (by linarith) (le_max_right _ _)
        · exact le_trans (by linarith) (le_max_left _ _)
      generalize max (-log v) (1.2 * log v) = Y at *
      have hp : (0.72 : ℝ) ^ 48 ≤ 1.5e-7 := by norm_num
      have hB2 : max (log (x / v)) (-1.2 * log (x / v)) ≤ 1.5e-7 * Y + 1e-7 := hB.trans (by nlinarith)
      have n1 := near_root hx hv0 hB2 (by linarith)
      have n2 := near_root (w := 1.5e-7 * Y + 1e-7) x1 hv0 (x2.trans (by linarith)) (by linarith)
      have n3 : |x - x'| ≤ |x - v| + |x' - v| := by
        rw [abs_sub_comm x' v]
        exact abs_sub_le _ _ _
      nlinarith
  | succ j ih =>
    intro k x hk hx i1 i2 hB fx m calls
    rcases vt_pass_all hg hDp hr hrho hmu h hv hx i1 i2 (j + 2) k (by omega) fx m calls with ⟨r, r1, r2, r3⟩ | ⟨x', fx', m', calls', e, x1, ⟨x2, x3, x4⟩, -⟩
    · exact ⟨r, r1, r2, by rw [r3]; exact low hx i1⟩
    · rw [show j + 1 + 2 = j + 2 + 1 by ring, e]
      refine ih (k + 1) x' (by omega) x1 x2 x3 ?_ fx' m' calls'
      rw [pow_succ]
      linarith

/-- **C130 (partial).** For every sphere with a terminal velocity between 2e-5 and 1.33 m/s, at any Reynolds number, `vt_sphere` converges, and is within 4e-6 m/s of the
solution of the drag balance. Missing: faster spheres, for which convergence is refuted by `C130_fast_false`, and slower ones, for which accuracy is refuted by
`C130_colloid_false`. -/
theorem C130_converges_all_partial {g Dp rhop rho mu v : ℝ} (hg : 0 < g) (hDp : 0 < Dp) (hr : rho < rhop) (hrho : 0 < rho) (hmu : 0 < mu)
    (h : Settles g Dp rhop rho mu v) (hv : 2e-5 ≤ v) (hv1 : v ≤ 1.33) : ∃ x, vtSphere g Dp rhop rho mu = .ok x ∧ |x - v| ≤ 4e-6 := by
  have hv0 := h.1
  have e1 : log (1 / v) = -log v := by rw [one_div, log_inv]
  have h1 : log v ≤ 0.29 := (log_le_log hv0 hv1).trans (by iv)
  obtain ⟨r, r1, r2, r3⟩ := vt_loop_all hg hDp hr hrho hmu h hv hv1 48 0 1 (by norm_num) (by norm_num) (by rw [e1]; linarith) (by rw [e1]; intro _; linarith)
    (by rw [e1, pow_zero, one_mul, show -1.2 * -log v = 1.2 * log v by ring]; linarith) none 0 []
  have e2 : vtSphere g Dp rhop rho mu = .ok r.1.x := by
    unfold vtSphere rootNewton
    rw [r1, ok_bind, if_pos r2]
    rfl
  exact ⟨r.1.x, e2, C130_accuracy_partial hg hDp hr hrho hmu e2 (by linarith) h⟩

/-- A 10 mm glass marble in water, at a Reynolds number of several thousand. -/
example : ∃ v x, Settles 9.80665 1e-2 2500 1000 1e-3 v ∧ vtSphere 9.80665 1e-2 2500 1000 1e-3 = .ok x ∧ 0.1 ≤ v ∧ |x - v| ≤ 4e-6 := by
  obtain ⟨v, hv, -⟩ := C86_terminal_unique (g := 9.80665) (Dp := 1e-2) (rhop := 2500) (rho := 1000) (mu := 1e-3) (by norm_num) (by norm_num) (by norm_num) (by norm_num) (by norm_num)
  have hv0 := hv.1
  have hR : 0 < 1000 * v * 1e-2 / 1e-3 := by positivity
  have e := hv.2
  have c1 := cd_ge367 hR
  have hsq : v ^ 2 * (3 * cdSphere (1000 * v * 1e-2 / 1e-3) * 1000) = 4 * 1e-2 * 9.80665 * (2500 - 1000) := by
    have h1 := sq_sqrt (show 0 ≤ 4 * 1e-2 * 9.80665 * (2500 - 1000) / (3 * cdSphere (1000 * v * 1e-2 / 1e-3) * 1000) by apply div_nonneg <;> [norm_num; linarith])
    rw [← e] at h1
    rw [h1, div_mul_cancel₀]
    linarith
  have hlo : 0.1 ≤ v := by
    by_contra hc
    push Not at hc
    have h1 : 24 / (1000 * v * 1e-2 / 1e-3) * (1 + 0.173 * (1000 * v * 1e-2 / 1e-3) ^ (0.657 : ℝ)) + 0.413 / (1 + 16300 * (1000 * v * 1e-2 / 1e-3) ^ (-1.09 : ℝ)) =
        cdSphere (1000 * v * 1e-2 / 1e-3) := rfl
    have h2 : v * cdSphere (1000 * v * 1e-2 / 1e-3) ≤ 0.5 := by
      rw [← h1]
      have h3 : (1000 * v * 1e-2 / 1e-3) ^ (0.657 : ℝ) ≤ 1000 := le_trans (rpow_le_rpow hR.le (show 1000 * v * 1e-2 / 1e-3 ≤ 1000 by rw [div_le_iff₀ (by norm_num)]; linarith) (by norm_num))
        (by iv)
      have h4 := rpow_pos_of_pos hR (-1.09 : ℝ)
      have h5 : 0.413 / (1 + 16300 * (1000 * v * 1e-2 / 1e-3) ^ (-1.09 : ℝ)) ≤ 0.413 := div_le_self (by norm_num) (by linarith)
      have h6 : v * (24 / (1000 * v * 1e-2 / 1e-3) * (1 + 0.173 * (1000 * v * 1e-2 / 1e-3) ^ (0.657 : ℝ))) = 0.0024 * (1 + 0.173 * (1000 * v * 1e-2 / 1e-3) ^ (0.657 : ℝ)) := by
        generalize (1000 * v * 1e-2 / 1e-3) ^ (0.657 : ℝ) = P
        field_simp
        norm_num
        ring
      rw [mul_add, h6]
      nlinarith
    nlinarith
  have hhi : v ≤ 1.33 := by
    by_contra hc
    push Not at hc
    nlinarith
  obtain ⟨x, hx, hx2⟩ := C130_converges_all_partial (by norm_num) (by norm_num) (by norm_num) (by norm_num) (by norm_num) hv (by linarith) hhi
  exact ⟨v, x, hv, hx, hlo, hx2⟩

end Verif.Flow
