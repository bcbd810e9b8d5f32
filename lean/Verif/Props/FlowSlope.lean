import Verif.Props.FlowConvergesHigh

/-!
# C130: `vt_sphere` converges when the drag balance slopes upwards at the first guess
-/

namespace Verif.Flow

open Real

/-- One pass of Newton's method, on logarithmic scales, for a root at a Reynolds number of at least 100. -/
theorem newton_mid {Rx Rv y c c' k : ℝ} (hv : 100 ≤ Rv) (hx : 0 < Rx) (hy : y = log Rx - log Rv) (hc : c = (log (cdSphere Rv) - log (cdSphere Rx)) / 2)
    (hcc : |c' - c| ≤ 1e-12) (hk : |k - cdS Rx / (2 * cdSphere Rx)| ≤ 1e-12) (i1 : -0.45 ≤ y) {u : ℝ} (hu : u = 1 - exp (-(y - c'))) :
    k ≤ 0.31 ∧ 0.5 ≤ 1 + k / (1 - k) * u ∧ -0.45 ≤ c' - log (1 + k / (1 - k) * u) ∧
      c' - log (1 + k / (1 - k) * u) ≤ 0.65 * max y (-1.2 * y) + 2e-11 ∧ -1.2 * (c' - log (1 + k / (1 - k) * u)) ≤ 0.65 * max y (-1.2 * y) + 2e-11 := by
  have hv0 : 0 < Rv := by linarith
  obtain ⟨c1, c2⟩ := abs_le.1 hcc
  obtain ⟨k1, k2⟩ := abs_le.1 hk
  have hcd : 0 < cdSphere Rx := lt_of_lt_of_le (by norm_num) (cd_ge367 hx)
  have sl : ∀ {p : ℝ}, cdS Rx ≤ p * cdSphere Rx → cdS Rx / (2 * cdSphere Rx) ≤ p / 2 := fun {p} h => by
    rw [div_le_iff₀ (by positivity)]; linarith
  have b2 : -0.075 ≤ cdS Rx / (2 * cdSphere Rx) := by rw [le_div_iff₀ (by positivity)]; linarith [cdS_lo hx]
  have h60 : 60 ≤ Rx := by
    have h1 : log 60 ≤ log Rx := by
      have h2 : log 100 ≤ log Rv := log_le_log (by norm_num) hv
      have h3 : log 60 + 0.45 ≤ log 100 := by iv
      linarith
    exact (log_le_log_iff (by norm_num) hx).1 h1
  have b3 := sl (cdS_hi60 h60)
  have hk1 : 0 < 1 - k := by linarith
  have r0 : -0.071 ≤ k / (1 - k) := by rw [le_div_iff₀ hk1]; linarith
  refine ⟨by linarith, ?_⟩
  rcases le_total 0 y with h0 | h0
  · have hle : Rv ≤ Rx := (log_le_log_iff hv0 hx).1 (by linarith)
    obtain ⟨q1, q2, -, -, q5⟩ := rhs_above hv0 hle hy hc
    rw [max_eq_left (by linarith)]
    have b4 := sl (cdS_hi100 (hv.trans hle))
    have r2 : k / (1 - k) ≤ 0.33334 := by rw [div_le_iff₀ hk1]; linarith
    obtain ⟨s1, s2, s3, s4⟩ := step_p2 (e := 1e-12) (by norm_num) (by norm_num) h0 (by linarith) (by linarith) r0 r2 hu
    exact ⟨s1, by linarith, by linarith, by linarith⟩
  · have hle : Rx ≤ Rv := (log_le_log_iff hx hv0).1 (by linarith)
    obtain ⟨q1, q2, -, q4⟩ := rhs_below hx hle (y := -y) (by linarith) hc
    rw [max_eq_right (by linarith)]
    have hu' : u = 1 - exp (-y + c') := by rw [hu]; congr 2; ring
    have r2 : k / (1 - k) ≤ 0.4286 := by rw [div_le_iff₀ hk1]; linarith
    obtain ⟨s1, s2, s3⟩ := step_n2 (e := 1e-12) (by norm_num) (by norm_num) (show 0 ≤ -y by linarith) (by linarith) (by linarith [q4 h60]) (by linarith) r0 r2 hu'
    exact ⟨s1, by linarith, by linarith, by linarith⟩

/-- One pass of the loop of `vt_sphere`. -/
theorem vt_pass_mid {g Dp rhop rho mu x v : ℝ} (hg : 0 < g) (hDp : 0 < Dp) (hr : rho < rhop) (hrho : 0 < rho) (hmu : 0 < mu)
    (h : Settles g Dp rhop rho mu v) (hv : 1.33 ≤ v) (hR : 100 ≤ rho * v * Dp / mu) (hx : 0 < x) (i1 : -0.45 ≤ log (x / v))
    (n k : ℕ) (hk : k + 1 < 50) (fx : Option ℝ) (m : ℕ) (calls : List (ℝ × ℝ)) :
    (∃ r, newtonLoop (vtEq g Dp rhop rho mu) 1e-6 1e-6 50 (n + 1) k x fx m calls = .ok r ∧ r.1.success = true ∧ r.1.x = x) ∨
      (∃ x' fx' m' calls', newtonLoop (vtEq g Dp rhop rho mu) 1e-6 1e-6 50 (n + 1) k x fx m calls =
        newtonLoop (vtEq g Dp rhop rho mu) 1e-6 1e-6 50 n (k + 1) x' fx' m' calls' ∧ 0 < x' ∧
        (-0.45 ≤ log (x' / v) ∧ max (log (x' / v)) (-1.2 * log (x' / v)) ≤ 0.65 * max (log (x / v)) (-1.2 * log (x / v)) + 2e-11) ∧ 1e-6 < |x - x'|) := by
  have he : (0 : ℝ) < eps := by norm_num [eps]
  have he1 : (eps : ℝ) ≤ 2.3e-16 := by norm_num [eps]
  have hv0 := h.1
  have hxv : 0.63 * v ≤ x := by
    have h1 : log 0.63 ≤ log (x / v) := le_trans (by iv) i1
    have h2 := (log_le_log_iff (by norm_num) (by positivity)).1 h1
    rwa [le_div_iff₀ hv0] at h2
  have hd : eps / x ≤ 1e-14 := by rw [div_le_iff₀ hx]; linarith
  refine vt_pass_gen (d := 1e-12) hg hDp hr hrho hmu h (by linarith) (by linarith)
    (fun y' => -0.45 ≤ y' ∧ max y' (-1.2 * y') ≤ 0.65 * max (log (x / v)) (-1.2 * log (x / v)) + 2e-11) ?_ n k hk fx m calls
  intro y c c' k u hy hc hyx hcc hk hu
  rw [← hyx] at i1 ⊢
  obtain ⟨w1, w2, w3, w5, w6⟩ := newton_mid hR (show 0 < rho * x * Dp / mu by positivity) hy hc hcc hk i1 hu
  refine ⟨by linarith, by linarith, ?_, w3, max_le w5 w6⟩
  have : 0.69 * 0.5 ≤ (1 - k) * (1 + k / (1 - k) * u) := mul_le_mul (by linarith) w2 (by norm_num) (by linarith)
  linarith

/-- The loop of `vt_sphere`, from the pass `k`. -/
theorem vt_loop_mid {g Dp rhop rho mu v : ℝ} (hg : 0 < g) (hDp : 0 < Dp) (hr : rho < rhop) (hrho : 0 < rho) (hmu : 0 < mu)
    (h : Settles g Dp rhop rho mu v) (hv : 1.33 ≤ v) (hv1 : v ≤ 20) (hR : 100 ≤ rho * v * Dp / mu) : ∀ (j k : ℕ) (x : ℝ), k + j = 48 → 0 < x → -0.45 ≤ log (x / v) →
      max (log (x / v)) (-1.2 * log (x / v)) ≤ 0.65 ^ k * 8 + 1e-10 → ∀ fx m calls,
      ∃ r, newtonLoop (vtEq g Dp rhop rho mu) 1e-6 1e-6 50 (j + 2) k x fx m calls = .ok r ∧ r.1.success = true ∧ 0.63 * v ≤ r.1.x := by
  have hv0 := h.1
  have low : ∀ {x : ℝ}, 0 < x → -0.45 ≤ log (x / v) → 0.63 * v ≤ x := fun {x} hx hy => by
    have h1 : log 0.63 ≤ log (x / v) := le_trans (by iv) hy
    have h2 := (log_le_log_iff (by norm_num) (by positivity)).1 h1
    rwa [le_div_iff₀ hv0] at h2
  intro j
  induction j with
  | zero =>
    intro k x hk hx i1 hB fx m calls
    have hk48 : k = 48 := by omega
    subst hk48
    rcases vt_pass_mid hg hDp hr hrho hmu h hv hR hx i1 1 48 (by norm_num) fx m calls with ⟨r, r1, r2, r3⟩ | ⟨x', -, -, -, -, x1, ⟨-, x2⟩, x3⟩
    · exact ⟨r, r1, r2, by rw [r3]; exact low hx i1⟩
    · exfalso
      have hp : (0.65 : ℝ) ^ 48 ≤ 1.1e-9 := by norm_num
      have n1 := near_root (w := 1e-8) hx hv0 (by linarith) (by norm_num)
      have n2 := near_root (w := 1e-8) x1 hv0 (by linarith) (by norm_num)
      have n3 : |x - x'| ≤ |x - v| + |x' - v| := by
        rw [abs_sub_comm x' v]
        exact abs_sub_le _ _ _
      linarith
  | succ j ih =>
    intro k x hk hx i1 hB fx m calls
    rcases vt_pass_mid hg hDp hr hrho hmu h hv hR hx i1 (j + 2) k (by omega) fx m calls with ⟨r, r1, r2, r3⟩ | ⟨x', fx', m', calls', e, x1, ⟨x2, x3⟩, -⟩
    · exact ⟨r, r1, r2, by rw [r3]; exact low hx i1⟩
    · rw [show j + 1 + 2 = j + 2 + 1 by ring, e]
      refine ih (k + 1) x' (by omega) x1 x2 ?_ fx' m' calls'
      rw [pow_succ]
      linarith

/-- The first pass on logarithmic scales: `κ * a` is one less the slope of the drag balance. -/
theorem first_core {a κ y c c' k u : ℝ} (ha : 0 < a) (eac : a = exp (-(y - c))) (hκ : κ * a ≤ 0.99) (b0 : 0 ≤ κ) (b1 : κ ≤ 0.25)
    (hcc : |c' - c| ≤ 1e-12) (hk : |k - κ| ≤ 1e-12) (q6 : -0.442 ≤ c) (q7 : c ≤ 0.226) (q8 : -(y - c) ≤ 3.226) (q9 : 0.1 ≤ -(y - c)) (hu : u = 1 - exp (-(y - c'))) :
    k < 1 ∧ 0 < 1 + k / (1 - k) * u ∧ 0.001 ≤ (1 - k) * (1 + k / (1 - k) * u) ∧
      (-0.45 ≤ c' - log (1 + k / (1 - k) * u) ∧ c' - log (1 + k / (1 - k) * u) ≤ 5) := by
  obtain ⟨c1, c2⟩ := abs_le.1 hcc
  obtain ⟨k1, k2⟩ := abs_le.1 hk
  have ha26 : a ≤ 26 := by
    rw [eac]
    refine (exp_le_exp.2 (show -(y - c) ≤ 3.226 by linarith)).trans ?_
    iv
  have eE : exp (-(y - c')) = a * exp (c' - c) := by
    rw [eac, ← exp_add]
    congr 1
    ring
  have hE := abs_le.1 (abs_exp_sub_one_le (show |c' - c| ≤ 1 by linarith))
  have hE1 : 1 < exp (-(y - c')) := by
    rw [← exp_zero]
    exact exp_lt_exp.2 (by linarith)
  have hE2 : exp (c' - c) ≤ 1 + 2e-12 := by linarith [hE.2]
  -- the slope seen by the solver
  have hsl : k * exp (-(y - c')) ≤ 0.991 := by
    have h1 : k * exp (-(y - c')) ≤ (κ + 1e-12) * exp (-(y - c')) := mul_le_mul_of_nonneg_right (by linarith) (exp_pos _).le
    have h2 : (κ + 1e-12) * exp (-(y - c')) ≤ (κ + 1e-12) * (a * (1 + 2e-12)) := by
      rw [eE]
      exact mul_le_mul_of_nonneg_left (mul_le_mul_of_nonneg_left hE2 ha.le) (by linarith)
    have h4 : (κ + 1e-12) * (a * (1 + 2e-12)) = κ * a + 2e-12 * (κ * a) + 1e-12 * (1 + 2e-12) * a := by ring
    linarith
  have hk1 : 0 < 1 - k := by linarith
  have eF : (1 - k) * (1 + k / (1 - k) * u) = 1 - k * exp (-(y - c')) := by
    rw [hu]
    field_simp
    ring
  have hF : 0.009 ≤ (1 - k) * (1 + k / (1 - k) * u) := by rw [eF]; linarith
  have hF0 : 0.0089 ≤ 1 + k / (1 - k) * u := by
    by_contra hc'
    push Not at hc'
    have : (1 - k) * (1 + k / (1 - k) * u) ≤ (1 - k) * 0.0089 := mul_le_mul_of_nonneg_left hc'.le hk1.le
    linarith
  have hF2 : 1 + k / (1 - k) * u ≤ 1 + 1e-9 := by
    have h1 : -1.1e-12 ≤ k / (1 - k) := by rw [le_div_iff₀ hk1]; linarith
    have h2 : -u ≤ 27 := by
      have h4 : a * exp (c' - c) ≤ a * (1 + 2e-12) := mul_le_mul_of_nonneg_left hE2 ha.le
      rw [hu, eE]
      linarith
    have h3 : 0 ≤ -u := by rw [hu]; linarith
    have h4 := mul_le_mul_of_nonneg_right h1 h3
    linarith
  have hpos : 0 < 1 + k / (1 - k) * u := by linarith
  have l1 : log 0.0089 ≤ log (1 + k / (1 - k) * u) := log_le_log (by norm_num) hF0
  have l2 : -4.73 ≤ log 0.0089 := by iv
  have l3 := log_le_sub_one_of_pos hpos
  exact ⟨by linarith, hpos, by linarith, by linarith, by linarith⟩

/-- The first pass, from 1 m/s. -/
theorem vt_first {g Dp rhop rho mu v s : ℝ} (hg : 0 < g) (hDp : 0 < Dp) (hr : rho < rhop) (hrho : 0 < rho) (hmu : 0 < mu)
    (h : Settles g Dp rhop rho mu v) (hv : 1.33 ≤ v) (hv1 : v ≤ 20) (hR : 160 ≤ rho * Dp / mu) (hR2 : rho * Dp / mu ≤ 3000)
    (hs : HasDerivAt (balance g Dp rhop rho mu) s 1) (hs1 : 0.01 ≤ s) :
    (∃ r, newtonLoop (vtEq g Dp rhop rho mu) 1e-6 1e-6 50 50 0 1 none 0 [] = .ok r ∧ r.1.success = true ∧ r.1.x = 1) ∨
      (∃ x' fx' m' calls', newtonLoop (vtEq g Dp rhop rho mu) 1e-6 1e-6 50 50 0 1 none 0 [] =
        newtonLoop (vtEq g Dp rhop rho mu) 1e-6 1e-6 50 49 1 x' fx' m' calls' ∧ 0 < x' ∧ (-0.45 ≤ log (x' / v) ∧ log (x' / v) ≤ 5) ∧ 1e-6 < |1 - x'|) := by
  have he : (0 : ℝ) < eps := by norm_num [eps]
  have he1 : (eps : ℝ) ≤ 2.3e-16 := by norm_num [eps]
  have hv0 := h.1
  have hd : 18 * (eps / 1) ≤ (1e-12 : ℝ) := by rw [div_one]; linarith
  have es := hs.unique (balance_deriv hg hDp hr hrho hmu)
  have hR1 : 160 ≤ rho * 1 * Dp / mu := by rw [mul_one]; exact hR
  have hR12 : rho * 1 * Dp / mu ≤ 3000 := by rw [mul_one]; exact hR2
  have hR0 : 0 < rho * 1 * Dp / mu := by linarith
  have hle : rho * 1 * Dp / mu ≤ rho * v * Dp / mu := by gcongr; linarith
  have hΔ : 0 < rhop - rho := by linarith
  have hcd : 0 < cdSphere (rho * 1 * Dp / mu) := lt_of_lt_of_le (by norm_num) (cd_ge367 hR0)
  have ha : 0 < √(4 * Dp * g * (rhop - rho) / (3 * cdSphere (rho * 1 * Dp / mu) * rho)) := sqrt_pos.2 (by positivity)
  have hlogs := settles_logs hg hDp hr hrho hmu one_pos h rfl ha
  generalize √(4 * Dp * g * (rhop - rho) / (3 * cdSphere (rho * 1 * Dp / mu) * rho)) = a at *
  have hl1 : log v ≤ 3 := (log_le_log hv0 hv1).trans (by iv)
  have hl0 : 0.28 ≤ log v := le_trans (by iv) (log_le_log (by norm_num) hv)
  refine vt_pass_gen (d := 1e-12) hg hDp hr hrho hmu h (by norm_num) hd (fun y' => -0.45 ≤ y' ∧ y' ≤ 5) ?_ 49 0 (by norm_num) none 0 []
  intro y c c' k u hy hc hyx hcc hk hu
  have ey : y = -log v := by rw [hyx, one_div, log_inv]
  have b1 : cdS (rho * 1 * Dp / mu) / (2 * cdSphere (rho * 1 * Dp / mu)) ≤ 0.25 := by
    rw [div_le_iff₀ (by positivity)]
    linarith [cdS_hi100 (show 100 ≤ rho * 1 * Dp / mu by linarith)]
  have b0 : 0 ≤ cdS (rho * 1 * Dp / mu) / (2 * cdSphere (rho * 1 * Dp / mu)) := div_nonneg (cdS_3000 hR0 hR12) (by positivity)
  obtain ⟨q1, q2, -, q4⟩ := rhs_below hR0 hle (y := -y) (by linarith) hc
  have q5 := q4 (by linarith)
  have q6 : -0.442 ≤ c := by
    have m3 := cd_log_anti (p := 0) (show (0 : ℝ) < 160 by norm_num) hR1 (fun R h1 h2 => by rw [zero_mul]; exact cdS_3000 (by linarith) (h2.trans hR12))
    have m4 : cdSphere 160 ≤ 0.886 := cd_hi (by norm_num) le_rfl le_rfl (by rw [cdB_eq (by norm_num)]; unfold cdA cdG cdQ; iv)
    have m5 : log (cdSphere 160) ≤ log 0.886 := log_le_log (lt_of_lt_of_le (by norm_num) (cd_ge367 (by norm_num))) m4
    have m6 : log 0.367 ≤ log (cdSphere (rho * v * Dp / mu)) := log_le_log (by norm_num) (cd_ge367 (by positivity))
    have m7 : log 0.886 - log 0.367 ≤ 0.883 := by iv
    rw [hc]
    linarith
  have eac : a = exp (-(y - c)) := by
    rw [ey, hc, ← hlogs.2, neg_sub, sub_neg_eq_add, exp_add, exp_log (by positivity), exp_log hv0]
    field_simp
  clear hlogs
  generalize cdS (rho * 1 * Dp / mu) / (2 * cdSphere (rho * 1 * Dp / mu)) = κ at *
  exact first_core ha eac (by linarith) b0 b1 hcc hk q6 (by linarith) (by linarith) (by linarith) hu

/-- **C130 (partial).** If the drag balance slopes upwards (by at least 0.01) at the first guess of 1 m/s and the Reynolds number there is at least 160, `vt_sphere` converges
for every terminal velocity from 2e-5 to 20 m/s, and is within 4e-6 m/s of the solution of the drag balance; if it slopes downwards, see `C130_fast_false`.
Missing: slopes within 0.01 of zero, lower Reynolds numbers at terminal velocities above 1.33 m/s, and velocities above 20 m/s. -/
theorem C130_slope_partial {g Dp rhop rho mu v s : ℝ} (hg : 0 < g) (hDp : 0 < Dp) (hr : rho < rhop) (hrho : 0 < rho) (hmu : 0 < mu)
    (h : Settles g Dp rhop rho mu v) (hv : 2e-5 ≤ v) (hv1 : v ≤ 20) (hR : 160 ≤ rho * Dp / mu) (hs : HasDerivAt (balance g Dp rhop rho mu) s 1) (hs1 : 0.01 ≤ s) :
    ∃ x, vtSphere g Dp rhop rho mu = .ok x ∧ |x - v| ≤ 4e-6 := by
  rcases le_total v 1.33 with hv2 | hv2
  · exact C130_converges_all_partial hg hDp hr hrho hmu h hv hv2
  rcases le_total 3000 (rho * Dp / mu) with hR2 | hR2
  · exact C130_large_partial hg hDp hr hrho hmu h hv2 hv1 hR2
  have hv0 := h.1
  have hRv : 100 ≤ rho * v * Dp / mu := by
    rw [show rho * v * Dp / mu = rho * Dp / mu * v by ring]
    nlinarith
  have hfin : ∃ r, newtonLoop (vtEq g Dp rhop rho mu) 1e-6 1e-6 50 50 0 1 none 0 [] = .ok r ∧ r.1.success = true ∧ 1e-5 ≤ r.1.x := by
    rcases vt_first hg hDp hr hrho hmu h hv2 hv1 hR hR2 hs hs1 with ⟨r, r1, r2, r3⟩ | ⟨x', fx', m', calls', e, x1, ⟨x2, x3⟩, -⟩
    · exact ⟨r, r1, r2, by rw [r3]; norm_num⟩
    · obtain ⟨r, r1, r2, r3⟩ := vt_loop_mid hg hDp hr hrho hmu h hv2 hv1 hRv 47 1 x' (by norm_num) x1 x2 (max_le (by norm_num; linarith) (by norm_num; linarith)) fx' m' calls'
      exact ⟨r, by rw [e]; exact r1, r2, by linarith⟩
  obtain ⟨r, r1, r2, r3⟩ := hfin
  have e2 : vtSphere g Dp rhop rho mu = .ok r.1.x := by
    unfold vtSphere rootNewton
    rw [r1, ok_bind, if_pos r2]
    rfl
  exact ⟨r.1.x, e2, C130_accuracy_partial hg hDp hr hrho hmu e2 r3 h⟩

set_option synthInstance.maxHeartbeats 200000 in
set_option synthInstance.maxSize 1024 in
/-- A 9 mm foam bead (50 kg/m³) in air. -/
example : ∃ v x, Settles 9.80665 9e-3 50 1.2 1.8e-5 v ∧ vtSphere 9.80665 9e-3 50 1.2 1.8e-5 = .ok x ∧ 1.33 ≤ v ∧ |x - v| ≤ 4e-6 := by
  obtain ⟨v, hv, -⟩ := C86_terminal_unique (g := 9.80665) (Dp := 9e-3) (rhop := 50) (rho := 1.2) (mu := 1.8e-5) (by norm_num) (by norm_num) (by norm_num) (by norm_num) (by norm_num)
  have hv0 := hv.1
  have hR : 0 < 1.2 * v * 9e-3 / 1.8e-5 := by positivity
  have e := hv.2
  have c1 := cd_ge367 hR
  have hsq : v ^ 2 * (3 * cdSphere (1.2 * v * 9e-3 / 1.8e-5) * 1.2) = 4 * 9e-3 * 9.80665 * (50 - 1.2) := by
    have h1 := sq_sqrt (show 0 ≤ 4 * 9e-3 * 9.80665 * (50 - 1.2) / (3 * cdSphere (1.2 * v * 9e-3 / 1.8e-5) * 1.2) by apply div_nonneg <;> [norm_num; linarith])
    rw [← e] at h1
    rw [h1, div_mul_cancel₀]
    linarith
  have hhi : v ≤ 20 := by
    by_contra hc
    push Not at hc
    nlinarith
  have hlo : 1.33 ≤ v := by
    by_contra hc
    push Not at hc
    -- `v² cd` grows with `v`
    have h5 : v ^ 2 * cdSphere (1.2 * v * 9e-3 / 1.8e-5) ≤ 2 := by
      have h1 : 24 / (1.2 * v * 9e-3 / 1.8e-5) * (1 + 0.173 * (1.2 * v * 9e-3 / 1.8e-5) ^ (0.657 : ℝ)) + 0.413 / (1 + 16300 * (1.2 * v * 9e-3 / 1.8e-5) ^ (-1.09 : ℝ)) =
          cdSphere (1.2 * v * 9e-3 / 1.8e-5) := rfl
      rw [← h1]
      have h2 : 1.2 * v * 9e-3 / 1.8e-5 ≤ 800 := by rw [div_le_iff₀ (by norm_num)]; linarith
      have h3 : (1.2 * v * 9e-3 / 1.8e-5) ^ (0.657 : ℝ) ≤ 81 := le_trans (rpow_le_rpow hR.le h2 (by norm_num)) (by iv)
      have h4' := rpow_pos_of_pos hR (-1.09 : ℝ)
      have h5 : 0.413 / (1 + 16300 * (1.2 * v * 9e-3 / 1.8e-5) ^ (-1.09 : ℝ)) ≤ 0.413 := div_le_self (by norm_num) (by linarith)
      have h6 : v * (24 / (1.2 * v * 9e-3 / 1.8e-5) * (1 + 0.173 * (1.2 * v * 9e-3 / 1.8e-5) ^ (0.657 : ℝ))) = 0.04 * (1 + 0.173 * (1.2 * v * 9e-3 / 1.8e-5) ^ (0.657 : ℝ)) := by
        generalize (1.2 * v * 9e-3 / 1.8e-5) ^ (0.657 : ℝ) = P
        field_simp
        norm_num
        ring
      rw [pow_two, mul_assoc, mul_add, h6]
      nlinarith
    nlinarith
  obtain ⟨x, hx, hx2⟩ := C130_slope_partial (by norm_num) (by norm_num) (by norm_num) (by norm_num) (by norm_num) hv (by linarith) hhi (by norm_num)
    (balance_deriv (by norm_num) (by norm_num) (by norm_num) (by norm_num) (by norm_num)) (by
      rw [show (1.2 * 1 * 9e-3 / 1.8e-5 : ℝ) = 600 by norm_num]
      unfold cdSphere cdS cdA cdB cdG cdQ
      iv)
  exact ⟨v, x, hv, hx, hlo, hx2⟩

end Verif.Flow
