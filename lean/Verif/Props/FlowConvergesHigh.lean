import Verif.Lemmas.FlowHigh
import Verif.Props.FlowConvergesAll

/-!
# C130: `vt_sphere` converges for large spheres
-/

namespace Verif.Flow

open Real

/-- One pass of the loop of `vt_sphere`. -/
theorem vt_pass_high {g Dp rhop rho mu x v : ℝ} (hg : 0 < g) (hDp : 0 < Dp) (hr : rho < rhop) (hrho : 0 < rho) (hmu : 0 < mu)
    (h : Settles g Dp rhop rho mu v) (hv : 1.33 ≤ v) (hR : 3000 ≤ rho * Dp / mu) (hx : 0 < x) (i1 : -3 ≤ log (x / v)) (i2 : log (x / v) ≤ 1.3) (i3 : 3000 ≤ rho * x * Dp / mu)
    (n k : ℕ) (hk : k + 1 < 50) (fx : Option ℝ) (m : ℕ) (calls : List (ℝ × ℝ)) :
    (∃ r, newtonLoop (vtEq g Dp rhop rho mu) 1e-6 1e-6 50 (n + 1) k x fx m calls = .ok r ∧ r.1.success = true ∧ r.1.x = x) ∨
      (∃ x' fx' m' calls', newtonLoop (vtEq g Dp rhop rho mu) 1e-6 1e-6 50 (n + 1) k x fx m calls =
        newtonLoop (vtEq g Dp rhop rho mu) 1e-6 1e-6 50 n (k + 1) x' fx' m' calls' ∧ 0 < x' ∧
        (-3 ≤ log (x' / v) ∧ log (x' / v) ≤ 1.3 ∧ log 3000 ≤ log (x' / v) + log (rho * v * Dp / mu) ∧ |log (x' / v)| ≤ 0.6 * |log (x / v)| + 1e-11) ∧ 1e-6 < |x - x'|) := by
  have he : (0 : ℝ) < eps := by norm_num [eps]
  have he1 : (eps : ℝ) ≤ 2.3e-16 := by norm_num [eps]
  have hv0 := h.1
  have hxv : 0.049 * v ≤ x := by
    have h1 : log 0.049 ≤ log (x / v) := le_trans (by iv) i1
    have h2 := (log_le_log_iff (by norm_num) (by positivity)).1 h1
    rwa [le_div_iff₀ hv0] at h2
  have hd : eps / x ≤ 1e-14 := by rw [div_le_iff₀ hx]; linarith
  have hRv : 3990 ≤ rho * v * Dp / mu := by
    rw [show rho * v * Dp / mu = rho * Dp / mu * v by ring]
    nlinarith
  refine vt_pass_gen (d := 1e-12) hg hDp hr hrho hmu h (by linarith) (by linarith)
    (fun y' => -3 ≤ y' ∧ y' ≤ 1.3 ∧ log 3000 ≤ y' + log (rho * v * Dp / mu) ∧ |y'| ≤ 0.6 * |log (x / v)| + 1e-11) ?_ n k hk fx m calls
  intro y c c' k u hy hc hyx hcc hk hu
  rw [← hyx] at i1 i2 ⊢
  obtain ⟨w1, w2, w3, w4⟩ := newton_high (by linarith) i3 hy hc hcc hk i1 hu
  have lv : log 3990 ≤ log (rho * v * Dp / mu) := log_le_log (by norm_num) hRv
  have l1 : log 3000 + 0.28 ≤ log 3990 := by iv
  have lx : log 3000 ≤ log (rho * x * Dp / mu) := log_le_log (by norm_num) i3
  refine ⟨by linarith, by linarith, ?_, ?_⟩
  · have : 0.97 * 0.35 ≤ (1 - k) * (1 + k / (1 - k) * u) := mul_le_mul (by linarith) w2 (by norm_num) (by linarith)
    linarith
  · generalize c' - log (1 + k / (1 - k) * u) = z at *
    rcases le_total 0 y with h0 | h0
    · obtain ⟨a1, a2⟩ := w3 h0
      rw [abs_of_nonneg h0]
      exact ⟨by linarith, by linarith, by linarith, abs_le.2 ⟨by linarith, by linarith⟩⟩
    · obtain ⟨a1, a2⟩ := w4 h0
      rw [abs_of_nonpos h0]
      refine ⟨by linarith, by linarith, ?_, abs_le.2 ⟨by linarith, by linarith⟩⟩
      rcases le_total y (-0.1) with h1 | h1 <;> linarith

/-- The loop of `vt_sphere`, from the pass `k`. -/
theorem vt_loop_high {g Dp rhop rho mu v : ℝ} (hg : 0 < g) (hDp : 0 < Dp) (hr : rho < rhop) (hrho : 0 < rho) (hmu : 0 < mu)
    (h : Settles g Dp rhop rho mu v) (hv : 1.33 ≤ v) (hv1 : v ≤ 20) (hR : 3000 ≤ rho * Dp / mu) : ∀ (j k : ℕ) (x : ℝ), k + j = 48 → 0 < x → -3 ≤ log (x / v) → log (x / v) ≤ 1.3 →
      3000 ≤ rho * x * Dp / mu → |log (x / v)| ≤ 0.6 ^ k * 3 + 3e-11 → ∀ fx m calls,
      ∃ r, newtonLoop (vtEq g Dp rhop rho mu) 1e-6 1e-6 50 (j + 2) k x fx m calls = .ok r ∧ r.1.success = true ∧ 0.049 * v ≤ r.1.x := by
  have hv0 := h.1
  have low : ∀ {x : ℝ}, 0 < x → -3 ≤ log (x / v) → 0.049 * v ≤ x := fun {x} hx hy => by
    have h1 : log 0.049 ≤ log (x / v) := le_trans (by iv) hy
    have h2 := (log_le_log_iff (by norm_num) (by positivity)).1 h1
    rwa [le_div_iff₀ hv0] at h2
  intro j
  induction j with
  | zero =>
    intro k x hk hx i1 i2 i3 hB fx m calls
    have hk48 : k = 48 := by omega
    subst hk48
    rcases vt_pass_high hg hDp hr hrho hmu h hv hR hx i1 i2 i3 1 48 (by norm_num) fx m calls with ⟨r, r1, r2, r3⟩ | ⟨x', -, -, -, -, x1, ⟨-, -, -, x2⟩, x3⟩
    · exact ⟨r, r1, r2, by rw [r3]; exact low hx i1⟩
    · exfalso
      have hp : (0.6 : ℝ) ^ 48 ≤ 1e-10 := by norm_num
      have hmax : ∀ y : ℝ, |y| ≤ 4e-10 → max y (-1.2 * y) ≤ 1e-9 := fun y hy => by
        obtain ⟨h1, h2⟩ := abs_le.1 hy
        exact max_le (by linarith) (by linarith)
      have n1 := near_root hx hv0 (hmax _ (by linarith)) (by norm_num)
      have n2 := near_root x1 hv0 (hmax _ (by linarith)) (by norm_num)
      have n3 : |x - x'| ≤ |x - v| + |x' - v| := by
        rw [abs_sub_comm x' v]
        exact abs_sub_le _ _ _
      linarith
  | succ j ih =>
    intro k x hk hx i1 i2 i3 hB fx m calls
    rcases vt_pass_high hg hDp hr hrho hmu h hv hR hx i1 i2 i3 (j + 2) k (by omega) fx m calls with ⟨r, r1, r2, r3⟩ | ⟨x', fx', m', calls', e, x1, ⟨x2, x3, x4, x5⟩, -⟩
    · exact ⟨r, r1, r2, by rw [r3]; exact low hx i1⟩
    · rw [show j + 1 + 2 = j + 2 + 1 by ring, e]
      refine ih (k + 1) x' (by omega) x1 x2 x3 ?_ ?_ fx' m' calls'
      · have e1 : log (x' / v) + log (rho * v * Dp / mu) = log (rho * x' * Dp / mu) := by
          rw [← log_mul (by positivity) (by positivity)]
          congr 1
          field_simp
        rw [e1] at x4
        exact (log_le_log_iff (by norm_num) (by positivity)).1 x4
      · rw [pow_succ]
        linarith

/-- **C130 (partial).** For every sphere with a Reynolds number of at least 3000 at 1 m/s (in water: 3 mm) and a terminal velocity between 1.33 and 20 m/s, `vt_sphere`
converges, and is within 4e-6 m/s of the solution of the drag balance. Missing: smaller spheres faster than 1.33 m/s, for many of which convergence is refuted by
`C130_fast_false`, and velocities above 20 m/s. -/
theorem C130_large_partial {g Dp rhop rho mu v : ℝ} (hg : 0 < g) (hDp : 0 < Dp) (hr : rho < rhop) (hrho : 0 < rho) (hmu : 0 < mu)
    (h : Settles g Dp rhop rho mu v) (hv : 1.33 ≤ v) (hv1 : v ≤ 20) (hR : 3000 ≤ rho * Dp / mu) : ∃ x, vtSphere g Dp rhop rho mu = .ok x ∧ |x - v| ≤ 4e-6 := by
  have hv0 := h.1
  have e1 : log (1 / v) = -log v := by rw [one_div, log_inv]
  have h1 : log v ≤ 3 := (log_le_log hv0 hv1).trans (by iv)
  have h2 : 0 ≤ log v := log_nonneg (by linarith)
  obtain ⟨r, r1, r2, r3⟩ := vt_loop_high hg hDp hr hrho hmu h hv hv1 hR 48 0 1 (by norm_num) (by norm_num) (by rw [e1]; linarith) (by rw [e1]; linarith) (by rw [mul_one]; exact hR)
    (by rw [e1, pow_zero, one_mul, abs_neg, abs_of_nonneg h2]; linarith) none 0 []
  have e2 : vtSphere g Dp rhop rho mu = .ok r.1.x := by
    unfold vtSphere rootNewton
    rw [r1, ok_bind, if_pos r2]
    rfl
  exact ⟨r.1.x, e2, C130_accuracy_partial hg hDp hr hrho hmu e2 (by linarith) h⟩

/-- A 2 cm steel ball in water. -/
example : ∃ v x, Settles 9.80665 2e-2 7800 1000 1e-3 v ∧ vtSphere 9.80665 2e-2 7800 1000 1e-3 = .ok x ∧ 1.6 ≤ v ∧ |x - v| ≤ 4e-6 := by
  obtain ⟨v, hv, -⟩ := C86_terminal_unique (g := 9.80665) (Dp := 2e-2) (rhop := 7800) (rho := 1000) (mu := 1e-3) (by norm_num) (by norm_num) (by norm_num) (by norm_num) (by norm_num)
  have hv0 := hv.1
  have hR : 0 < 1000 * v * 2e-2 / 1e-3 := by positivity
  have e := hv.2
  have c1 := cd_ge367 hR
  have hsq : v ^ 2 * (3 * cdSphere (1000 * v * 2e-2 / 1e-3) * 1000) = 4 * 2e-2 * 9.80665 * (7800 - 1000) := by
    have h1 := sq_sqrt (show 0 ≤ 4 * 2e-2 * 9.80665 * (7800 - 1000) / (3 * cdSphere (1000 * v * 2e-2 / 1e-3) * 1000) by apply div_nonneg <;> [norm_num; linarith])
    rw [← e] at h1
    rw [h1, div_mul_cancel₀]
    linarith
  have hhi : v ≤ 20 := by
    by_contra hc
    push Not at hc
    nlinarith
  have hlo : 1.6 ≤ v := by
    by_contra hc
    push Not at hc
    rcases le_total 3000 (1000 * v * 2e-2 / 1e-3) with h3 | h3
    · have c2 := cd_le505 h3
      have : v ^ 2 ≤ 2.56 := by nlinarith
      nlinarith
    · have h4 : v ≤ 0.15 := by
        rw [div_le_iff₀ (by norm_num)] at h3
        linarith
      -- `v² cd` grows with `v`
      have h5 : v ^ 2 * cdSphere (1000 * v * 2e-2 / 1e-3) ≤ 1 := by
        have h1 : 24 / (1000 * v * 2e-2 / 1e-3) * (1 + 0.173 * (1000 * v * 2e-2 / 1e-3) ^ (0.657 : ℝ)) + 0.413 / (1 + 16300 * (1000 * v * 2e-2 / 1e-3) ^ (-1.09 : ℝ)) =
            cdSphere (1000 * v * 2e-2 / 1e-3) := rfl
        rw [← h1]
        have h3 : (1000 * v * 2e-2 / 1e-3) ^ (0.657 : ℝ) ≤ 1000 := le_trans (rpow_le_rpow hR.le h3 (by norm_num)) (by iv)
        have h4' := rpow_pos_of_pos hR (-1.09 : ℝ)
        have h5 : 0.413 / (1 + 16300 * (1000 * v * 2e-2 / 1e-3) ^ (-1.09 : ℝ)) ≤ 0.413 := div_le_self (by norm_num) (by linarith)
        have h6 : v * (24 / (1000 * v * 2e-2 / 1e-3) * (1 + 0.173 * (1000 * v * 2e-2 / 1e-3) ^ (0.657 : ℝ))) = 0.0012 * (1 + 0.173 * (1000 * v * 2e-2 / 1e-3) ^ (0.657 : ℝ)) := by
          generalize (1000 * v * 2e-2 / 1e-3) ^ (0.657 : ℝ) = P
          field_simp
          norm_num
          ring
        rw [pow_two, mul_assoc, mul_add, h6]
        nlinarith
      nlinarith
  obtain ⟨x, hx, hx2⟩ := C130_large_partial (by norm_num) (by norm_num) (by norm_num) (by norm_num) (by norm_num) hv (by linarith) hhi (by norm_num)
  exact ⟨v, x, hv, hx, hlo, hx2⟩

end Verif.Flow
