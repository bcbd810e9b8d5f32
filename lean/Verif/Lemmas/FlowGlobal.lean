import Verif.Lemmas.FlowElastic

/-!
# Helper lemmas: Newton's method for the drag balance contracts at every Reynolds number
-/

namespace Verif.Flow

open Real

theorem exp_chord {s m : ℝ} (h0 : 0 ≤ s) (h1 : s ≤ m) (hm : 0 < m) : exp s ≤ 1 + s * ((exp m - 1) / m) := by
  have h := convexOn_exp.2 (Set.mem_univ (0 : ℝ)) (Set.mem_univ m) (show 0 ≤ 1 - s / m by rw [sub_nonneg, div_le_one hm]; exact h1) (show 0 ≤ s / m by positivity) (by ring)
  simp only [smul_eq_mul, mul_zero, zero_add, exp_zero, mul_one] at h
  rw [div_mul_cancel₀ _ hm.ne'] at h
  calc exp s ≤ _ := h
    _ = _ := by field_simp; ring

theorem neg_log_chord {t m k : ℝ} (h0 : 0 ≤ t) (h1 : t ≤ m) (hm : 0 < m) (hm1 : m < 1) (hk : exp (-(k * m)) ≤ 1 - m) : -log (1 - t) ≤ k * t := by
  have h := convexOn_exp.2 (Set.mem_univ (0 : ℝ)) (Set.mem_univ (-(k * m))) (show 0 ≤ 1 - t / m by rw [sub_nonneg, div_le_one hm]; exact h1) (show 0 ≤ t / m by positivity) (by ring)
  simp only [smul_eq_mul, mul_zero, zero_add, exp_zero, mul_one] at h
  have e : t / m * -(k * m) = -(k * t) := by field_simp
  rw [e] at h
  have h2 : t / m * exp (-(k * m)) ≤ t / m * (1 - m) := mul_le_mul_of_nonneg_left hk (by positivity)
  have h3 : t / m * (1 - m) = t / m - t := by field_simp
  have h4 : exp (-(k * t)) ≤ 1 - t := by linarith
  have h5 := log_le_log (exp_pos _) h4
  rw [log_exp] at h5
  linarith

theorem log_two_sub {w : ℝ} (h : 0 ≤ w) : log (2 - exp (-w)) ≤ 0.2412 + w / 4 := by
  have h1 : exp (-w) ≤ 1 := exp_le_one_iff.2 (by linarith)
  have h2 := log_le_sub_one_of_pos (show 0 < (2 - exp (-w)) / 1.6 by apply div_pos <;> linarith)
  rw [log_div (by linarith) (by norm_num)] at h2
  have h3 : log 1.6 ≤ 0.47001 := by iv
  have h4 := add_one_le_exp (0.9163 - w)
  have h5 : exp (0.9163 - w) = exp 0.9163 * exp (-w) := by rw [← exp_add]; congr 1
  have h6 : exp 0.9163 ≤ 2.50003 := by iv
  have h7 : exp 0.9163 * exp (-w) ≤ 2.50003 * exp (-w) := mul_le_mul_of_nonneg_right h6 (exp_pos _).le
  have h8 : (2 - exp (-w)) / 1.6 = 1.25 - 0.625 * exp (-w) := by ring
  rw [h8] at h2
  linarith

/-- Above the root, Reynolds number up to 100. -/
theorem step_p1 {y c r e u : ℝ} (he : 0 ≤ e) (he1 : e ≤ 1e-6) (hy : 0 ≤ y) (h1 : 0.23 * y - e ≤ c) (h2 : c ≤ 0.5 * y + e) (hr0 : 0 ≤ r) (hr1 : r ≤ 1 + 5 * e)
    (hu : u = 1 - exp (-(y - c))) : 0.5 ≤ 1 + r * u ∧ c - log (1 + r * u) ≤ 0.5 * y + 4 * e ∧ -0.56 * y - 10 * e ≤ c - log (1 + r * u) ∧ -0.25 ≤ c - log (1 + r * u) := by
  have hE := exp_pos (-(y - c))
  have u1 : u < 1 := by linarith
  have u2 : u ≤ y - c := by have := add_one_le_exp (-(y - c)); linarith
  have u3 : -1.1 * e ≤ u := by
    have h3 : exp (-(y - c)) ≤ exp e := exp_le_exp.2 (by linarith)
    have h4 : exp e ≤ 1 / (1 - e) := exp_bound_div_one_sub_of_interval he (by linarith)
    have h5 : 1 / (1 - e) ≤ 1 + 1.1 * e := by rw [div_le_iff₀ (by linarith)]; nlinarith
    linarith
  have k1 : -1.2 * e ≤ r * u := by
    rcases le_total 0 u with h | h
    · have := mul_nonneg hr0 h
      linarith
    · have : r * -u ≤ (1 + 5 * e) * (1.1 * e) := mul_le_mul hr1 (by linarith) (by linarith) (by linarith)
      nlinarith
  have k2 : r * u ≤ max u 0 + 5 * e := by
    rcases le_total 0 u with h | h
    · rw [max_eq_left h]
      have : r * u ≤ (1 + 5 * e) * u := mul_le_mul_of_nonneg_right hr1 h
      nlinarith
    · rw [max_eq_right h]
      have := mul_nonneg hr0 (show 0 ≤ -u by linarith)
      linarith
  have hpos : 0 < 1 + r * u := by linarith
  have l1 := one_sub_inv_le_log_of_pos hpos
  have l2 := log_le_sub_one_of_pos hpos
  have l3 : -2 * e ≤ log (1 + r * u) := by
    have : (1 + r * u)⁻¹ ≤ 1 + 2 * e := by
      rw [inv_le_comm₀ hpos (by linarith), inv_eq_one_div, div_le_iff₀ (by linarith)]
      nlinarith
    linarith
  have k3 : max u 0 ≤ y - c + e := max_le (by linarith) (by linarith)
  refine ⟨by linarith, by linarith, by linarith, ?_⟩
  -- absolute bound
  rcases le_total 0 (y - c) with h | h
  · have m1 := log_two_sub h
    have m2 : log (1 + r * u) ≤ log (2 - exp (-(y - c))) + 5 * e := by
      have hu0 : 0 ≤ u := by rw [hu]; have := exp_le_one_iff.2 (show -(y - c) ≤ 0 by linarith); linarith
      rw [max_eq_left hu0] at k2
      have m3 : 1 + r * u ≤ (2 - exp (-(y - c))) * exp (5 * e) := by
        have := add_one_le_exp (5 * e)
        have m4 : (2 - exp (-(y - c))) * (5 * e + 1) ≤ (2 - exp (-(y - c))) * exp (5 * e) := mul_le_mul_of_nonneg_left this (by linarith)
        nlinarith
      have m5 := log_le_log hpos m3
      rw [log_mul (by linarith) (exp_pos _).ne', log_exp] at m5
      exact m5
    linarith
  · have : max u 0 = 0 := max_eq_right (by linarith)
    linarith

/-- Above the root, Reynolds number from 100 on. -/
theorem step_p2 {y c r e u : ℝ} (he : 0 ≤ e) (he1 : e ≤ 1e-6) (hy : 0 ≤ y) (h1 : -0.075 * y - e ≤ c) (h2 : c ≤ 0.5 * y + e) (hr0 : -0.071 ≤ r) (hr1 : r ≤ 0.33334)
    (hu : u = 1 - exp (-(y - c))) : 0.5 ≤ 1 + r * u ∧ c - log (1 + r * u) ≤ 0.55 * y + 4 * e ∧ -0.45 * y - 10 * e ≤ c - log (1 + r * u) ∧ c - 0.288 ≤ c - log (1 + r * u) := by
  have hE := exp_pos (-(y - c))
  have u1 : u < 1 := by linarith
  have u2 : u ≤ y - c := by have := add_one_le_exp (-(y - c)); linarith
  have u3 : -1.1 * e ≤ u := by
    have h3 : exp (-(y - c)) ≤ exp e := exp_le_exp.2 (by linarith)
    have h4 : exp e ≤ 1 / (1 - e) := exp_bound_div_one_sub_of_interval he (by linarith)
    have h5 : 1 / (1 - e) ≤ 1 + 1.1 * e := by rw [div_le_iff₀ (by linarith)]; nlinarith
    linarith
  have s0 : 0 ≤ y - c + e := by linarith
  have k1 : -0.071 * (y - c + e) - e ≤ r * u ∧ -0.0711 ≤ r * u := by
    rcases le_total 0 u with h | h
    · have := mul_le_mul_of_nonneg_right hr0 h
      exact ⟨by linarith, by linarith⟩
    · have : r * -u ≤ 0.33334 * (-u) := mul_le_mul_of_nonneg_right hr1 (by linarith)
      exact ⟨by linarith, by linarith⟩
  have k2 : r * u ≤ 0.33334 * (y - c + e) + e ∧ r * u ≤ 0.33334 := by
    rcases le_total 0 u with h | h
    · have := mul_le_mul_of_nonneg_right hr1 h
      exact ⟨by linarith, by linarith⟩
    · have := mul_le_mul_of_nonneg_right hr0 (show 0 ≤ -u by linarith)
      exact ⟨by linarith, by linarith⟩
  have hpos : 0 < 1 + r * u := by linarith
  have l1 := one_sub_inv_le_log_of_pos hpos
  have l2 := log_le_sub_one_of_pos hpos
  have l3 : -0.077 * (y - c + e) - 1.1 * e ≤ log (1 + r * u) := by
    refine le_trans ?_ l1
    have e3 : 1 - (1 + r * u)⁻¹ = r * u / (1 + r * u) := by field_simp; ring
    rw [e3, le_div_iff₀ hpos]
    obtain ⟨k3, k4⟩ := k1
    nlinarith
  have l4 : log (1 + r * u) ≤ 0.288 := le_trans (log_le_log hpos (show 1 + r * u ≤ 1.33334 by linarith [k2.2])) (by iv)
  exact ⟨by linarith, by linarith, by linarith [k2.1], by linarith⟩

/-- Below the root, Reynolds number up to 100. -/
theorem step_n1 {y c r e u : ℝ} (he : 0 ≤ e) (he1 : e ≤ 1e-6) (hy : 0 ≤ y) (hy1 : y ≤ 0.29) (h1 : -0.5 * y - e ≤ c) (h2 : c ≤ -0.23 * y + e) (hr0 : 0 ≤ r) (hr1 : r ≤ 1 + 5 * e)
    (hu : u = 1 - exp (y + c)) : 0.5 ≤ 1 + r * u ∧ c - log (1 + r * u) ≤ 0.78 * y + 10 * e ∧ -0.5 * y - 10 * e ≤ c - log (1 + r * u) := by
  have hs : 0 ≤ max (y + c) 0 := le_max_right _ _
  have hs1 : max (y + c) 0 ≤ 0.224 := max_le (by linarith) (by norm_num)
  have c1 : exp (y + c) ≤ 1 + 1.122 * max (y + c) 0 := by
    refine (exp_le_exp.2 (le_max_left (y + c) 0)).trans ((exp_chord hs hs1 (by norm_num)).trans ?_)
    have : (exp 0.224 - 1) / 0.224 ≤ 1.122 := by iv
    nlinarith
  have hs2 : max (y + c) 0 ≤ y + c + e := max_le (by linarith) (by linarith)
  have u1 : -u ≤ 1.122 * max (y + c) 0 := by linarith
  have u2 : u ≤ e := by have := add_one_le_exp (y + c); linarith
  have t1 : -(r * u) ≤ 1.12201 * max (y + c) 0 := by
    rcases le_total 0 u with h | h
    · have := mul_nonneg hr0 h
      linarith
    · have : r * -u ≤ (1 + 5 * e) * (1.122 * max (y + c) 0) := mul_le_mul hr1 u1 (by linarith) (by linarith)
      nlinarith
  have hpos : 0 < 1 + r * u := by linarith
  have l2 := log_le_sub_one_of_pos hpos
  have t2 : r * u ≤ 2 * e := by
    rcases le_total 0 u with h | h
    · have : r * u ≤ (1 + 5 * e) * e := mul_le_mul hr1 u2 h (by linarith)
      nlinarith
    · have := mul_nonneg hr0 (show 0 ≤ -u by linarith)
      linarith
  have l3 : -log (1 + r * u) ≤ 1.156 * (1.12201 * max (y + c) 0) := by
    have h3 : -log (1 - 1.12201 * max (y + c) 0) ≤ 1.156 * (1.12201 * max (y + c) 0) := neg_log_chord (m := 0.2514) (by positivity) (by linarith) (by norm_num) (by norm_num) (by iv)
    have h4 : log (1 - 1.12201 * max (y + c) 0) ≤ log (1 + r * u) := log_le_log (by linarith) (by linarith)
    linarith
  exact ⟨by linarith, by linarith, by linarith⟩

/-- Below the root, Reynolds number from 60 on. -/
theorem step_n2 {y c r e u : ℝ} (he : 0 ≤ e) (he1 : e ≤ 1e-6) (hy : 0 ≤ y) (hy1 : y ≤ 0.45) (h1 : -0.3 * y - e ≤ c) (h2 : c ≤ 0.075 * y + e) (hr0 : -0.071 ≤ r) (hr1 : r ≤ 0.4286)
    (hu : u = 1 - exp (y + c)) : 0.5 ≤ 1 + r * u ∧ c - log (1 + r * u) ≤ 0.78 * y + 10 * e ∧ -0.5 * y - 10 * e ≤ c - log (1 + r * u) := by
  have hs : 0 ≤ max (y + c) 0 := le_max_right _ _
  have hs1 : max (y + c) 0 ≤ 0.485 := max_le (by linarith) (by norm_num)
  have c1 : exp (y + c) ≤ 1 + 1.288 * max (y + c) 0 := by
    refine (exp_le_exp.2 (le_max_left (y + c) 0)).trans ((exp_chord hs hs1 (by norm_num)).trans ?_)
    have : (exp 0.485 - 1) / 0.485 ≤ 1.288 := by iv
    nlinarith
  have hs2 : max (y + c) 0 ≤ y + c + e := max_le (by linarith) (by linarith)
  have u1 : -u ≤ 1.288 * max (y + c) 0 := by linarith
  have u2 : u ≤ e := by have := add_one_le_exp (y + c); linarith
  have t1 : -(r * u) ≤ 0.553 * max (y + c) 0 + 0.071 * e := by
    rcases le_total 0 u with h | h
    · have := mul_le_mul_of_nonneg_right hr0 h
      linarith
    · have : r * -u ≤ 0.4286 * (-u) := mul_le_mul_of_nonneg_right hr1 (by linarith)
      linarith
  have hpos : 0 < 1 + r * u := by linarith
  have l2 := log_le_sub_one_of_pos hpos
  have t2 : r * u ≤ 0.0915 * max (y + c) 0 + e := by
    rcases le_total 0 u with h | h
    · have := mul_le_mul_of_nonneg_right hr1 h
      linarith
    · have := mul_le_mul_of_nonneg_right hr0 (show 0 ≤ -u by linarith)
      linarith
  have l3 : -log (1 + r * u) ≤ 1.17 * (0.553 * max (y + c) 0 + 0.071 * e) := by
    have h3 : -log (1 - (0.553 * max (y + c) 0 + 0.071 * e)) ≤ 1.17 * (0.553 * max (y + c) 0 + 0.071 * e) := neg_log_chord (m := 0.2683) (by positivity) (by linarith) (by norm_num) (by norm_num) (by iv)
    have h4 : log (1 - (0.553 * max (y + c) 0 + 0.071 * e)) ≤ log (1 + r * u) := log_le_log (by linarith) (by linarith)
    linarith
  exact ⟨by linarith, by linarith, by linarith⟩

/-- The right-hand side of the balance above the root, on logarithmic scales. -/
theorem rhs_above {Rx Rv : ℝ} (hv : 0 < Rv) (h : Rv ≤ Rx) {y c : ℝ} (hy : y = log Rx - log Rv) (hc : c = (log (cdSphere Rv) - log (cdSphere Rx)) / 2) :
    -0.075 * y ≤ c ∧ c ≤ 0.5 * y ∧ (Rx ≤ 100 → 0.23 * y ≤ c) ∧ (Rv ≤ 100 → 100 ≤ Rx → 0 ≤ c) ∧ -0.16 ≤ c := by
  have hx := hv.trans_le h
  have m1 := cd_log_mono (p := 1) hv h (fun R h1 h2 => by rw [one_mul]; exact (cdS_bounds (hv.trans_le h1)).2)
  have m2 := cd_log_anti (p := -0.15) hv h (fun R h1 h2 => cdS_lo (hv.trans_le h1))
  have gx := cd_ge367 hx
  have gv := cd_ge367 hv
  have m3 : Rx ≤ 3000 → log (cdSphere Rx) ≤ log (cdSphere Rv) := fun h3 => by
    have := cd_log_anti (p := 0) hv h (fun R h1 h2 => by rw [zero_mul]; exact cdS_3000 (hv.trans_le h1) (h2.trans h3))
    linarith
  refine ⟨by rw [hy, hc]; linarith, by rw [hy, hc]; linarith, fun h3 => ?_, fun h3 h4 => ?_, ?_⟩
  · have := cd_log_anti (p := 0.46) hv h (fun R h1 h2 => cdS_lo100 (hv.trans_le h1) (h2.trans h3))
    rw [hy, hc]
    linarith
  · have : log (cdSphere Rx) ≤ log (cdSphere Rv) := by
      rcases le_total Rx 3000 with h5 | h5
      · exact m3 h5
      · refine log_le_log (by linarith) ((cd_le505 h5).trans ?_)
        have h6 := (cd_mono hv h3).2.1
        have h7 : 0.85 ≤ cdB 100 := by rw [cdB_eq (by norm_num)]; iv
        obtain ⟨p1, -, -, p4⟩ := cd_terms_pos hv
        rw [cd_terms]
        linarith
    rw [hc]
    linarith
  · rcases le_total Rx 3000 with h5 | h5
    · have := m3 h5
      rw [hc]
      linarith
    · have h6 : log (cdSphere Rx) ≤ log 0.505 := log_le_log (by linarith) (cd_le505 h5)
      have h7 : log 0.367 ≤ log (cdSphere Rv) := log_le_log (by norm_num) gv
      have h8 : log 0.505 - log 0.367 ≤ 0.3195 := by iv
      rw [hc]
      linarith

/-- The right-hand side of the balance below the root, on logarithmic scales. -/
theorem rhs_below {Rx Rv : ℝ} (hx : 0 < Rx) (h : Rx ≤ Rv) {y c : ℝ} (hy : y = log Rv - log Rx) (hc : c = (log (cdSphere Rv) - log (cdSphere Rx)) / 2) :
    -0.5 * y ≤ c ∧ c ≤ 0.075 * y ∧ (Rv ≤ 100 → c ≤ -0.23 * y) ∧ (60 ≤ Rx → -0.3 * y ≤ c) := by
  have hv := hx.trans_le h
  have m1 := cd_log_mono (p := 1) hx h (fun R h1 h2 => by rw [one_mul]; exact (cdS_bounds (hx.trans_le h1)).2)
  have m2 := cd_log_anti (p := -0.15) hx h (fun R h1 h2 => cdS_lo (hx.trans_le h1))
  refine ⟨by rw [hy, hc]; linarith, by rw [hy, hc]; linarith, fun h3 => ?_, fun h3 => ?_⟩
  · have := cd_log_anti (p := 0.46) hx h (fun R h1 h2 => cdS_lo100 (hx.trans_le h1) (h2.trans h3))
    rw [hy, hc]
    linarith
  · have := cd_log_mono (p := 0.6) hx h (fun R h1 h2 => cdS_hi60 (h3.trans h1))
    rw [hy, hc]
    linarith

/-- One pass of Newton's method, on logarithmic scales: `y` is the logarithm of the iterate over the root, `c'` that of the right-hand side and `k` its slope. -/
theorem newton_core {Rx Rv y c c' k : ℝ} (hv : 0 < Rv) (hx : 0 < Rx) (hy : y = log Rx - log Rv) (hc : c = (log (cdSphere Rv) - log (cdSphere Rx)) / 2)
    (hcc : |c' - c| ≤ 1e-9) (hk : |k - cdS Rx / (2 * cdSphere Rx)| ≤ 5e-10) (i1 : -0.45 ≤ y) (i2 : Rv ≤ 100 → -0.29 ≤ y) {u : ℝ} (hu : u = 1 - exp (-(y - c'))) :
    k ≤ 0.51 ∧ 0.5 ≤ 1 + k / (1 - k) * u ∧ -0.45 ≤ c' - log (1 + k / (1 - k) * u) ∧ (Rv ≤ 100 → -0.29 ≤ c' - log (1 + k / (1 - k) * u)) ∧
      c' - log (1 + k / (1 - k) * u) ≤ 0.72 * max y (-1.2 * y) + 2e-8 ∧ -1.2 * (c' - log (1 + k / (1 - k) * u)) ≤ 0.72 * max y (-1.2 * y) + 2e-8 := by
  obtain ⟨c1, c2⟩ := abs_le.1 hcc
  obtain ⟨k1, k2⟩ := abs_le.1 hk
  have hcd : 0 < cdSphere Rx := lt_of_lt_of_le (by norm_num) (cd_ge367 hx)
  have sl : ∀ {p : ℝ}, cdS Rx ≤ p * cdSphere Rx → cdS Rx / (2 * cdSphere Rx) ≤ p / 2 := fun {p} h => by
    rw [div_le_iff₀ (by positivity)]; linarith
  have sg : ∀ {p : ℝ}, p * cdSphere Rx ≤ cdS Rx → p / 2 ≤ cdS Rx / (2 * cdSphere Rx) := fun {p} h => by
    rw [le_div_iff₀ (by positivity)]; linarith
  have b1 := sl (p := 1) (by rw [one_mul]; exact (cdS_bounds hx).2)
  have b2 := sg (cdS_lo hx)
  have hk1 : 0 < 1 - k := by linarith
  have r0 : -0.071 ≤ k / (1 - k) := by rw [le_div_iff₀ hk1]; linarith
  have r1 : k / (1 - k) ≤ 1 + 5 * 1e-9 := by rw [div_le_iff₀ hk1]; linarith
  refine ⟨by linarith, ?_⟩
  rcases le_total 0 y with h0 | h0
  · have hle : Rv ≤ Rx := (log_le_log_iff hv hx).1 (by linarith)
    obtain ⟨q1, q2, q3, q4, q5⟩ := rhs_above hv hle hy hc
    rw [max_eq_left (by linarith)]
    rcases le_total Rx 100 with h | h
    · have b3 := sg (cdS_lo100 hx h)
      have r2 : 0 ≤ k / (1 - k) := div_nonneg (by linarith) hk1.le
      obtain ⟨s1, s2, s3, s4⟩ := step_p1 (e := 1e-9) (by norm_num) (by norm_num) h0 (by linarith [q3 h]) (by linarith) r2 r1 hu
      exact ⟨s1, by linarith, fun _ => by linarith, by linarith, by linarith⟩
    · have b3 := sl (cdS_hi100 h)
      have r2 : k / (1 - k) ≤ 0.33334 := by rw [div_le_iff₀ hk1]; linarith
      obtain ⟨s1, s2, s3, s4⟩ := step_p2 (e := 1e-9) (by norm_num) (by norm_num) h0 (by linarith) (by linarith) r0 r2 hu
      exact ⟨s1, by linarith, fun h5 => by linarith [q4 h5 h], by linarith, by linarith⟩
  · have hle : Rx ≤ Rv := (log_le_log_iff hx hv).1 (by linarith)
    obtain ⟨q1, q2, q3, q4⟩ := rhs_below hx hle (y := -y) (by linarith) hc
    rw [max_eq_right (by linarith)]
    have hu' : u = 1 - exp (-y + c') := by rw [hu]; congr 2; ring
    rcases le_total Rv 100 with h | h
    · have b3 := sg (cdS_lo100 hx (hle.trans h))
      have r2 : 0 ≤ k / (1 - k) := div_nonneg (by linarith) hk1.le
      have i3 := i2 h
      obtain ⟨s1, s2, s3⟩ := step_n1 (e := 1e-9) (by norm_num) (by norm_num) (show 0 ≤ -y by linarith) (by linarith) (by linarith) (by linarith [q3 h]) r2 r1 hu'
      exact ⟨s1, by linarith, fun _ => by linarith, by linarith, by linarith⟩
    · have h60 : 60 ≤ Rx := by
        have h1 : log 60 ≤ log Rx := by
          have h2 : log 100 ≤ log Rv := log_le_log (by norm_num) h
          have h3 : log 60 + 0.45 ≤ log 100 := by iv
          linarith
        exact (log_le_log_iff (by norm_num) hx).1 h1
      have b3 := sl (cdS_hi60 h60)
      have r2 : k / (1 - k) ≤ 0.4286 := by rw [div_le_iff₀ hk1]; linarith
      obtain ⟨s1, s2, s3⟩ := step_n2 (e := 1e-9) (by norm_num) (by norm_num) (show 0 ≤ -y by linarith) (by linarith) (by linarith [q4 h60]) (by linarith) r0 r2 hu'
      exact ⟨s1, by linarith, fun _ => by linarith, by linarith, by linarith⟩

end Verif.Flow
