import Verif.Lemmas.FlowContraction

/-!
# C130: `vt_sphere` converges for small and medium particles
-/

namespace Verif.Flow

open Real

/-- One pass of the loop of `vt_sphere`. -/
theorem vt_pass {g Dp rhop rho mu x v : ℝ} (hg : 0 < g) (hDp : 0 < Dp) (hr : rho < rhop) (hrho : 0 < rho) (hmu : 0 < mu) (hR : rho * Dp / mu ≤ 40)
    (h : Settles g Dp rhop rho mu v) (hv : 2e-5 ≤ v) (hv1 : v ≤ 1) (hx : 0 < x) (hx1 : x ≤ 1.23) (hy : -0.2 ≤ log (x / v))
    (n k : ℕ) (hk : k + 1 < 50) (fx : Option ℝ) (m : ℕ) (calls : List (ℝ × ℝ)) :
    (∃ r, newtonLoop (vtEq g Dp rhop rho mu) 1e-6 1e-6 50 (n + 1) k x fx m calls = .ok r ∧ r.1.success = true ∧ r.1.x = x) ∨
      (1e-6 < 2.25 * x * |log (x / v)| + 1e-9 ∧ ∃ x' fx' m' calls', newtonLoop (vtEq g Dp rhop rho mu) 1e-6 1e-6 50 (n + 1) k x fx m calls =
        newtonLoop (vtEq g Dp rhop rho mu) 1e-6 1e-6 50 n (k + 1) x' fx' m' calls' ∧ 0 < x' ∧ -0.2 ≤ log (x' / v) ∧ |log (x' / v)| ≤ 0.75 * |log (x / v)| + 3e-10) := by
  have he : (0 : ℝ) < eps := by norm_num [eps]
  have he1 : (eps : ℝ) ≤ 2.3e-16 := by norm_num [eps]
  have hv0 := h.1
  have hxv : 0.8 * v ≤ x := by
    have h1 : log 0.8 ≤ log (x / v) := le_trans (by iv) hy
    have h2 := (log_le_log_iff (by norm_num) (by positivity)).1 h1
    rwa [le_div_iff₀ hv0] at h2
  have hRx : rho * x * Dp / mu ≤ 50 := by
    rw [show rho * x * Dp / mu = rho * Dp / mu * x by ring]
    have : 0 < rho * Dp / mu := by positivity
    nlinarith
  have hRv : rho * v * Dp / mu ≤ 50 := by
    rw [show rho * v * Dp / mu = rho * Dp / mu * v by ring]
    have : 0 < rho * Dp / mu := by positivity
    nlinarith
  obtain ⟨a, a', b, ea, ha, ef, n1, -⟩ := vtEq_near hg hDp hr hrho hmu (show 1e-9 ≤ x by linarith)
  obtain ⟨a2, b2, ef2, ha2, hb0, hb1⟩ := vtEq_mid hg hDp hr hrho hmu (show 1e-9 ≤ x by linarith) hRx
  rw [ef2] at ef
  obtain ⟨q1, q2⟩ := rhs_log hg hDp hr hrho hmu hx h ea hRx hRv
  have ea2 : a' = a2 := by
    have := congrArg Prod.fst ef
    simp only at this
    linarith
  subst ea2
  clear ef ea
  have hd : eps / x ≤ 1.6e-11 := by rw [div_le_iff₀ hx]; linarith
  have hn : |a' - a| ≤ 1e-11 * a := n1.trans (mul_le_mul_of_nonneg_right (by linarith) ha.le)
  obtain ⟨n2, n3⟩ := abs_le.1 hn
  have l1 : log (a' / v) ≤ log (a / v) + 1e-10 := by
    rw [log_div ha2.ne' hv0.ne', log_div ha.ne' hv0.ne']
    have := log_le_sub_one_of_pos (show 0 < a' / a by positivity)
    rw [log_div ha2.ne' ha.ne'] at this
    have : a' / a ≤ 1 + 1e-11 := by rw [div_le_iff₀ ha]; linarith
    linarith
  have l2 : log (a / v) - 1e-10 ≤ log (a' / v) := by
    rw [log_div ha2.ne' hv0.ne', log_div ha.ne' hv0.ne']
    have := log_le_sub_one_of_pos (show 0 < a / a' by positivity)
    rw [log_div ha.ne' ha2.ne'] at this
    have : a / a' ≤ 1 + 1e-10 := by rw [div_le_iff₀ ha2]; linarith
    linarith
  have h1 : 0 ≤ log (x / v) → 0.25 * log (x / v) - 1e-10 ≤ log (a' / v) ∧ log (a' / v) ≤ 0.5 * log (x / v) + 1e-10 := fun h0 => by
    obtain ⟨p1, p2⟩ := q1 h0
    exact ⟨by linarith, by linarith⟩
  have h2 : log (x / v) ≤ 0 → 0.5 * log (x / v) - 1e-10 ≤ log (a' / v) ∧ log (a' / v) ≤ 0.25 * log (x / v) + 1e-10 := fun h0 => by
    obtain ⟨p1, p2⟩ := q2 h0
    exact ⟨by linarith, by linarith⟩
  clear q1 q2 l1 l2 n1 n2 n3 hn
  have hs : |log (x / v) - log (a' / v)| ≤ 0.75 * |log (x / v)| + 1e-10 := by
    rcases le_total 0 (log (x / v)) with h0 | h0
    · obtain ⟨p1, p2⟩ := h1 h0
      rw [abs_of_nonneg h0]
      exact abs_le.2 ⟨by linarith, by linarith⟩
    · obtain ⟨p1, p2⟩ := h2 h0
      rw [abs_of_nonpos h0]
      exact abs_le.2 ⟨by linarith, by linarith⟩
  have hs2 : -0.16 ≤ log (x / v) - log (a' / v) := by
    rcases le_total 0 (log (x / v)) with h0 | h0
    · linarith [(h1 h0).2]
    · linarith [(h2 h0).2]
  have elog : log (x / v) - log (a' / v) = log (x / a') := by
    rw [log_div hx.ne' hv0.ne', log_div ha2.ne' hv0.ne', log_div hx.ne' ha2.ne']
    ring
  have hax : a' ≤ 1.2 * x := by
    have h3 : log (1 / 1.2) ≤ log (x / a') := by
      rw [← elog]
      exact le_trans (by iv) hs2
    have h4 := (log_le_log_iff (by norm_num) (by positivity)).1 h3
    rw [div_le_div_iff₀ (by norm_num) ha2] at h4
    linarith
  have hβ0 : 0 ≤ b2 / eps := by positivity
  have hβ1 : b2 / eps ≤ a' / (2 * x) := by
    rw [div_le_iff₀ he]
    calc b2 ≤ eps / x / 2 * a' := hb1
      _ = a' / (2 * x) * eps := by field_simp
  have hβ2 : a' / (2 * x) ≤ 0.6 := by rw [div_le_iff₀ (by positivity)]; linarith
  obtain ⟨w1, w2⟩ := newton_between hx ha2 hv0 hβ0 hβ1 hax
  obtain ⟨w3, w4, -⟩ := contract (e := 1e-10) (by norm_num) (by norm_num) hy h1 h2 w2
  -- the size of the step
  have hstep : |x - a'| ≤ 1.2 * x * (0.75 * |log (x / v)| + 1e-10) := by
    refine le_trans ?_ (mul_le_mul_of_nonneg_left hs (by positivity))
    rw [elog]
    rcases le_total a' x with h3 | h3
    · have h4 := log_le_sub_one_of_pos (show 0 < a' / x by positivity)
      have h5 : log (x / a') = -log (a' / x) := by rw [← log_inv, inv_div]
      have h6 : a' / x * x = a' := by field_simp
      rw [abs_of_nonneg (by linarith), abs_of_nonneg (log_nonneg (by rw [one_le_div ha2]; exact h3)), h5]
      have h7 : 0 ≤ -log (a' / x) := by rw [← h5]; exact log_nonneg (by rw [one_le_div ha2]; exact h3)
      nlinarith
    · have h4 := log_le_sub_one_of_pos (show 0 < x / a' by positivity)
      have h6 : x / a' * a' = x := by field_simp
      have h8 : log (x / a') ≤ 0 := log_nonpos (by positivity) (by rw [div_le_one ha2]; exact h3)
      rw [abs_of_nonpos (by linarith), abs_of_nonpos h8]
      have h9 : (1 - x / a') * a' ≤ -log (x / a') * a' := mul_le_mul_of_nonneg_right (by linarith) ha2.le
      have h10 : -log (x / a') * a' ≤ -log (x / a') * (1.2 * x) := mul_le_mul_of_nonneg_left hax (by linarith)
      nlinarith
  clear w2 h1 h2 hs hs2 elog hb1 hd
  rw [newtonLoop]
  simp only [derivativeComplex, ef2]
  have eD : (eps - b2) / eps = 1 - b2 / eps := by field_simp
  rw [eD]
  generalize b2 / eps = β at *
  by_cases g1 : |x - a'| ≤ 1e-6
  · left
    rw [if_pos g1]
    exact ⟨_, rfl, rfl, rfl⟩
  rw [if_neg g1, if_neg (by rw [abs_of_pos (by linarith)]; linarith)]
  by_cases g2 : |-(x - a') / (1 - β)| ≤ 1e-6
  · left
    rw [if_pos g2]
    exact ⟨_, rfl, rfl, rfl⟩
  right
  rw [if_neg g2, if_pos hk]
  refine ⟨?_, x - (x - a') / (1 - β), _, _, _, by rw [neg_div, ← sub_eq_add_neg], w1, w4, by linarith⟩
  rw [not_le, abs_div, abs_neg, abs_of_pos (show 0 < 1 - β by linarith), lt_div_iff₀ (by linarith)] at g2
  have : 0 ≤ x * |log (x / v)| := by positivity
  nlinarith

/-- The loop of `vt_sphere`, from the pass `k`. -/
theorem vt_loop {g Dp rhop rho mu v : ℝ} (hg : 0 < g) (hDp : 0 < Dp) (hr : rho < rhop) (hrho : 0 < rho) (hmu : 0 < mu) (hR : rho * Dp / mu ≤ 40)
    (h : Settles g Dp rhop rho mu v) (hv : 2e-5 ≤ v) (hv1 : v ≤ 1) : ∀ (j k : ℕ) (x : ℝ), k + j = 48 → 0 < x → -0.2 ≤ log (x / v) → |log (x / v)| ≤ max (-log v) 0.2 →
      |log (x / v)| ≤ 0.75 ^ k * -log v + 1.2e-9 → ∀ fx m calls, ∃ r, newtonLoop (vtEq g Dp rhop rho mu) 1e-6 1e-6 50 (j + 2) k x fx m calls = .ok r ∧ r.1.success = true ∧ 0.8 * v ≤ r.1.x := by
  have hv0 := h.1
  have hY : 0 ≤ -log v := by
    have := log_nonpos hv0.le hv1
    linarith
  intro j
  induction j with
  | zero =>
    intro k x hk hx hy hM hB fx m calls
    have hk48 : k = 48 := by omega
    subst hk48
    have hxv : 0.8 * v ≤ x := by
      have h1 : log 0.8 ≤ log (x / v) := le_trans (by iv) hy
      have h2 := (log_le_log_iff (by norm_num) (by positivity)).1 h1
      rwa [le_div_iff₀ hv0] at h2
    have hvY : v * -log v ≤ 0.368 := by
      have h1 := add_one_le_exp (-log v - 1)
      rw [exp_sub, exp_neg, exp_log hv0] at h1
      have h2 : v * -log v ≤ v * (v⁻¹ / exp 1) := mul_le_mul_of_nonneg_left (by linarith) hv0.le
      have h3 : v * (v⁻¹ / exp 1) = 1 / exp 1 := by field_simp
      have h4 : 1 / exp 1 ≤ 0.368 := by
        rw [div_le_iff₀ (exp_pos 1)]
        have := exp_one_gt_d9
        linarith
      linarith
    have hY11 : -log v ≤ 11 := by
      have h1 : log 2e-5 ≤ log v := log_le_log (by norm_num) hv
      have h2 : (-11 : ℝ) ≤ log 2e-5 := by iv
      linarith
    have hp : (0.75 : ℝ) ^ 48 ≤ 1.01e-6 := by norm_num
    have hB' : |log (x / v)| ≤ 1.01e-6 * -log v + 1.2e-9 := hB.trans (by nlinarith)
    have hxle : x ≤ 1.001 * v := by
      have h1 : log (x / v) ≤ log 1.001 := le_trans ((le_abs_self _).trans hB') (le_trans (show _ ≤ (0.0001 : ℝ) by linarith) (by iv))
      have h2 := (log_le_log_iff (by positivity) (by norm_num)).1 h1
      rwa [div_le_iff₀ hv0] at h2
    rcases vt_pass hg hDp hr hrho hmu hR h hv hv1 hx (by linarith) hy 1 48 (by norm_num) fx m calls with ⟨r, r1, r2, r3⟩ | ⟨r1, -⟩
    · exact ⟨r, r1, r2, by rw [r3]; exact hxv⟩
    · exfalso
      have h1 : x * |log (x / v)| ≤ 1.001 * v * (1.01e-6 * -log v + 1.2e-9) := mul_le_mul hxle hB' (abs_nonneg _) (by positivity)
      nlinarith
  | succ j ih =>
    intro k x hk hx hy hM hB fx m calls
    have hxv : 0.8 * v ≤ x := by
      have h1 : log 0.8 ≤ log (x / v) := le_trans (by iv) hy
      have h2 := (log_le_log_iff (by norm_num) (by positivity)).1 h1
      rwa [le_div_iff₀ hv0] at h2
    have hx1 : x ≤ 1.23 := by
      have h1 : log x ≤ 0.2 := by
        rw [log_div hx.ne' hv0.ne'] at hM
        have h2 := (abs_le.1 hM).2
        rcases max_cases (-log v) 0.2 with ⟨e, -⟩ | ⟨e, -⟩ <;> rw [e] at h2 <;> linarith
      have h2 : log x ≤ log 1.23 := h1.trans (by iv)
      exact (log_le_log_iff hx (by norm_num)).1 h2
    rcases vt_pass hg hDp hr hrho hmu hR h hv hv1 hx hx1 hy (j + 2) k (by omega) fx m calls with ⟨r, r1, r2, r3⟩ | ⟨-, x', fx', m', calls', e, x1, x2, x3⟩
    · exact ⟨r, r1, r2, by rw [r3]; exact hxv⟩
    · rw [show j + 1 + 2 = j + 2 + 1 by ring, e]
      have hM2 : 0.2 ≤ max (-log v) 0.2 := le_max_right _ _
      refine ih (k + 1) x' (by omega) x1 x2 ?_ ?_ fx' m' calls'
      · linarith
      · rw [pow_succ]
        linarith

/-- **C130 (partial).** For every sphere with a terminal velocity between 2e-5 and 1 m/s and a Reynolds number up to 40 at 1 m/s, `vt_sphere` converges, and is within
4e-6 m/s of the solution of the drag balance. Missing: larger spheres (see `C130_converges_all_partial`), and slower ones, for which accuracy is refuted by `C130_colloid_false`. -/
theorem C130_converges_partial {g Dp rhop rho mu v : ℝ} (hg : 0 < g) (hDp : 0 < Dp) (hr : rho < rhop) (hrho : 0 < rho) (hmu : 0 < mu) (hR : rho * Dp / mu ≤ 40)
    (h : Settles g Dp rhop rho mu v) (hv : 2e-5 ≤ v) (hv1 : v ≤ 1) : ∃ x, vtSphere g Dp rhop rho mu = .ok x ∧ |x - v| ≤ 4e-6 := by
  have hv0 := h.1
  have hY : 0 ≤ -log v := by
    have := log_nonpos hv0.le hv1
    linarith
  have e1 : log (1 / v) = -log v := by rw [one_div, log_inv]
  obtain ⟨r, r1, r2, r3⟩ := vt_loop hg hDp hr hrho hmu hR h hv hv1 48 0 1 (by norm_num) (by norm_num) (by rw [e1]; linarith) (by rw [e1, abs_of_nonneg hY]; exact le_max_left _ _)
    (by rw [e1, abs_of_nonneg hY]; linarith) none 0 []
  have e2 : vtSphere g Dp rhop rho mu = .ok r.1.x := by
    unfold vtSphere rootNewton
    rw [r1, ok_bind, if_pos r2]
    rfl
  exact ⟨r.1.x, e2, C130_accuracy_partial hg hDp hr hrho hmu e2 (by linarith) h⟩

/-- In creeping flow the terminal velocity is close to that of Stokes. -/
theorem settles_ge {g Dp rhop rho mu v : ℝ} (hg : 0 < g) (hDp : 0 < Dp) (hr : rho < rhop) (hrho : 0 < rho) (hmu : 0 < mu) (h : Settles g Dp rhop rho mu v)
    (hR1 : rho * v * Dp / mu ≤ 1) : vtStokes g Dp rhop rho mu ≤ 1.2 * v := by
  have hv := h.1
  have h2 := (settles_iff hg hDp hr hrho hmu hv).1 h
  have hR : 0 < rho * v * Dp / mu := by positivity
  have hd : 0 < rhop - rho := by linarith
  have h3 : dragRe (rho * v * Dp / mu) ≤ 28.8 * (rho * v * Dp / mu) := by
    rw [dragRe_eq hR]
    generalize rho * v * Dp / mu = R at hR hR1
    have h4 : R ^ (0.657 : ℝ) ≤ 1 := rpow_le_one hR.le hR1 (by norm_num)
    have h5 := rpow_pos_of_pos hR (-1.09 : ℝ)
    have h6 : R ^ 2 / (1 + 16300 * R ^ (-1.09 : ℝ)) ≤ R ^ 2 := div_le_self (by positivity) (by linarith)
    have h7 : 24 * R * (1 + 0.173 * R ^ (0.657 : ℝ)) ≤ 24 * R * 1.173 := mul_le_mul_of_nonneg_left (by linarith) (by positivity)
    nlinarith
  rw [h2, div_le_iff₀ (by positivity)] at h3
  unfold vtStokes
  rw [div_le_iff₀ (by positivity)]
  have h4 : 28.8 * (rho * v * Dp / mu) * (3 * mu ^ 2) = 1.2 * v * (18 * mu) * (4 * (rho * Dp)) := by field_simp; ring
  rw [h4] at h3
  have h5 : (Dp ^ 2 * g * (rhop - rho)) * (4 * (rho * Dp)) ≤ 1.2 * v * (18 * mu) * (4 * (rho * Dp)) := by nlinarith
  exact le_of_mul_le_mul_right h5 (by positivity)

/-- A 20 µm styrene droplet in air. -/
example : ∃ v x, Settles 9.80665 20e-6 910 1.2 1.6e-5 v ∧ vtSphere 9.80665 20e-6 910 1.2 1.6e-5 = .ok x ∧ 0.01 ≤ v ∧ |x - v| ≤ 4e-6 := by
  obtain ⟨v, hv, -⟩ := C86_terminal_unique (g := 9.80665) (Dp := 20e-6) (rhop := 910) (rho := 1.2) (mu := 1.6e-5) (by norm_num) (by norm_num) (by norm_num) (by norm_num) (by norm_num)
  have h1 := C86_below_Stokes (by norm_num) (by norm_num) (by norm_num) (by norm_num) (by norm_num) hv
  have h2 : vtStokes 9.80665 20e-6 910 1.2 1.6e-5 ≤ 0.0125 := by unfold vtStokes; norm_num
  have h3 : (0.012 : ℝ) ≤ vtStokes 9.80665 20e-6 910 1.2 1.6e-5 := by unfold vtStokes; norm_num
  have h4 := settles_ge (by norm_num) (by norm_num) (by norm_num) (by norm_num) (by norm_num) hv (by rw [div_le_iff₀ (by norm_num)]; linarith)
  obtain ⟨x, hx, hx2⟩ := C130_converges_partial (by norm_num) (by norm_num) (by norm_num) (by norm_num) (by norm_num) (by norm_num) hv (by linarith) (by linarith)
  exact ⟨v, x, hv, hx, by linarith, hx2⟩

end Verif.Flow
