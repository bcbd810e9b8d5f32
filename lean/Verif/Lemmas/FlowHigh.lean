import Verif.Lemmas.FlowGlobal

/-!
# Helper lemmas: Newton's method for the drag balance at Reynolds numbers from 3000 on
-/

namespace Verif.Flow

open Real

theorem cdS_hi_piece {a R qa qb m : ℝ} (ha : 0 < a) (h1 : a ≤ R) (hqa : cdQ R ≤ qa) (hqb : qb ≤ cdQ R) (hm : 0 ≤ m) (e1 : m * (1 + qa) ^ 2 ≤ qa) (e2 : m * (1 + qb) ^ 2 ≤ qb)
    (hk : 0.95 * cdA a + 0.293 * cdB a ≤ 0.05 * cdG a + 1.09 * (0.413 * m)) : cdS R ≤ 0.05 * cdSphere R := by
  have hR := ha.trans_le h1
  obtain ⟨hA, hB, hQ, hG⟩ := cd_terms_pos hR
  obtain ⟨g1, g2, g3, g4⟩ := cd_mono ha h1
  have e : cdG R * (cdQ R / (1 + cdQ R)) = 0.413 * (cdQ R / (1 + cdQ R) ^ 2) := by unfold cdG; field_simp
  have h4 : m ≤ cdQ R / (1 + cdQ R) ^ 2 := by
    rw [le_div_iff₀ (by positivity)]
    generalize cdQ R = q at *
    rcases eq_or_lt_of_le (hqb.trans hqa) with h | h
    · have : q = qa := by linarith
      rw [this]
      exact e1
    · have id : (qa - qb) * (q - m * (1 + q) ^ 2) = (q - qb) * (qa - m * (1 + qa) ^ 2) + (qa - q) * (qb - m * (1 + qb) ^ 2) + m * ((q - qb) * (qa - q)) * (qa - qb) := by ring
      have p1 := mul_nonneg (sub_nonneg.2 hqb) (sub_nonneg.2 e1)
      have p2 := mul_nonneg (sub_nonneg.2 hqa) (sub_nonneg.2 e2)
      have p3 := mul_nonneg (mul_nonneg hm (mul_nonneg (sub_nonneg.2 hqb) (sub_nonneg.2 hqa))) (sub_nonneg.2 h.le)
      have p4 : 0 ≤ (qa - qb) * (q - m * (1 + q) ^ 2) := by linarith
      have := nonneg_of_mul_nonneg_right p4 (sub_pos.2 h)
      linarith
  unfold cdS
  rw [mul_assoc, e, cd_terms]
  linarith

theorem cdS_hi3000 {R : ℝ} (h : 3000 ≤ R) : cdS R ≤ 0.05 * cdSphere R := by
  have hR : 0 < R := by linarith
  have hQ := (cd_terms_pos hR).2.2.1
  rcases le_total R 7000 with h' | h'
  · refine cdS_hi_piece (qa := 2.66) (qb := 1) (m := 0.198) (by norm_num) h ((cd_mono (by norm_num) h).2.2.1.trans (by unfold cdQ; iv)) (le_trans (by unfold cdQ; iv) (cd_mono hR h').2.2.1)
      (by norm_num) (by norm_num) (by norm_num) (by rw [cdB_eq (by norm_num)]; unfold cdA cdG cdQ; iv)
  clear h; rename' h' => h
  rcases le_total R 3e4 with h' | h'
  · refine cdS_hi_piece (qa := 1.1) (qb := 0.21) (m := 0.14) (by norm_num) h ((cd_mono (by norm_num) h).2.2.1.trans (by unfold cdQ; iv)) (le_trans (by unfold cdQ; iv) (cd_mono hR h').2.2.1)
      (by norm_num) (by norm_num) (by norm_num) (by rw [cdB_eq (by norm_num)]; unfold cdA cdG cdQ; iv)
  clear h; rename' h' => h
  rcases le_total R 1e5 with h' | h'
  · refine cdS_hi_piece (qa := 0.22) (qb := 0.057) (m := 0.05) (by norm_num) h ((cd_mono (by norm_num) h).2.2.1.trans (by unfold cdQ; iv)) (le_trans (by unfold cdQ; iv) (cd_mono hR h').2.2.1)
      (by norm_num) (by norm_num) (by norm_num) (by rw [cdB_eq (by norm_num)]; unfold cdA cdG cdQ; iv)
  clear h; rename' h' => h
  rcases le_total R 3e5 with h' | h'
  · refine cdS_hi_piece (qa := 0.06) (qb := 0.017) (m := 0.016) (by norm_num) h ((cd_mono (by norm_num) h).2.2.1.trans (by unfold cdQ; iv)) (le_trans (by unfold cdQ; iv) (cd_mono hR h').2.2.1)
      (by norm_num) (by norm_num) (by norm_num) (by rw [cdB_eq (by norm_num)]; unfold cdA cdG cdQ; iv)
  · exact cdS_hi_piece (qa := cdQ R) (qb := cdQ R) (m := 0) (by norm_num) h' le_rfl le_rfl le_rfl (by linarith) (by linarith) (by rw [cdB_eq (by norm_num)]; unfold cdA cdG cdQ; iv)

/-- Above the root. -/
theorem step_high_above {y c r e u : ℝ} (he : 0 ≤ e) (he1 : e ≤ 1e-6) (hy : 0 ≤ y) (h1 : -0.075 * y - e ≤ c) (h2 : c ≤ 0.025 * y + e) (hr0 : -0.071 ≤ r) (hr1 : r ≤ 0.0257)
    (hu : u = 1 - exp (-(y - c))) : 0.35 ≤ 1 + r * u ∧ c - log (1 + r * u) ≤ 0.4 * y + 10 * e ∧ -0.16 * y - 10 * e ≤ c - log (1 + r * u) := by
  have hE := exp_pos (-(y - c))
  have u1 : u < 1 := by linarith
  have u2 : u ≤ y - c := by have := add_one_le_exp (-(y - c)); linarith
  have u3 : -1.1 * e ≤ u := by
    have h3 : exp (-(y - c)) ≤ exp e := exp_le_exp.2 (by linarith)
    have h4 : exp e ≤ 1 / (1 - e) := exp_bound_div_one_sub_of_interval he (by linarith)
    have h5 : 1 / (1 - e) ≤ 1 + 1.1 * e := by rw [div_le_iff₀ (by linarith)]; nlinarith
    linarith
  have k1 : -0.071 * (y - c + e) - e ≤ r * u ∧ -0.0711 ≤ r * u := by
    rcases le_total 0 u with h | h
    · have := mul_le_mul_of_nonneg_right hr0 h
      exact ⟨by linarith, by linarith⟩
    · have : r * -u ≤ 0.0257 * (-u) := mul_le_mul_of_nonneg_right hr1 (by linarith)
      exact ⟨by linarith, by linarith⟩
  have k2 : r * u ≤ 0.0257 * (y - c + e) + e := by
    rcases le_total 0 u with h | h
    · have := mul_le_mul_of_nonneg_right hr1 h
      linarith
    · have := mul_le_mul_of_nonneg_right hr0 (show 0 ≤ -u by linarith)
      linarith
  have hpos : 0 < 1 + r * u := by linarith [k1.2]
  have l1 := one_sub_inv_le_log_of_pos hpos
  have l2 := log_le_sub_one_of_pos hpos
  have l3 : -0.077 * (y - c + e) - 1.1 * e ≤ log (1 + r * u) := by
    refine le_trans ?_ l1
    have e3 : 1 - (1 + r * u)⁻¹ = r * u / (1 + r * u) := by field_simp; ring
    rw [e3, le_div_iff₀ hpos]
    obtain ⟨k3, k4⟩ := k1
    nlinarith
  exact ⟨by linarith [k1.2], by linarith, by linarith⟩

/-- Below the root. -/
theorem step_high_below {y c r e u : ℝ} (he : 0 ≤ e) (he1 : e ≤ 1e-6) (hy : 0 ≤ y) (hy1 : y ≤ 3) (h1 : -0.025 * y - e ≤ c) (h2 : c ≤ 0.075 * y + e) (hr0 : -0.071 ≤ r) (hr1 : r ≤ 0.0257)
    (hu : u = 1 - exp (y + c)) : 0.35 ≤ 1 + r * u ∧ c - log (1 + r * u) ≤ 0.41 * y + 10 * e ∧ -0.6 * y - 10 * e ≤ c - log (1 + r * u) := by
  have hs : 0 ≤ max (y + c) 0 := le_max_right _ _
  have hs1 : max (y + c) 0 ≤ 3.226 := max_le (by linarith) (by norm_num)
  have c1 : exp (y + c) ≤ 1 + 7.5 * max (y + c) 0 := by
    refine (exp_le_exp.2 (le_max_left (y + c) 0)).trans ((exp_chord hs hs1 (by norm_num)).trans ?_)
    have : (exp 3.226 - 1) / 3.226 ≤ 7.5 := by iv
    nlinarith
  have hs2 : max (y + c) 0 ≤ y + c + e := max_le (by linarith) (by linarith)
  have u1 : -u ≤ 7.5 * max (y + c) 0 := by linarith
  have u2 : u ≤ e := by have := add_one_le_exp (y + c); linarith
  have t1 : -(r * u) ≤ 0.193 * max (y + c) 0 + 0.071 * e := by
    rcases le_total 0 u with h | h
    · have := mul_le_mul_of_nonneg_right hr0 h
      linarith
    · have : r * -u ≤ 0.0257 * (-u) := mul_le_mul_of_nonneg_right hr1 (by linarith)
      linarith
  have hpos : 0 < 1 + r * u := by linarith
  have l2 := log_le_sub_one_of_pos hpos
  have t2 : r * u ≤ 0.5325 * max (y + c) 0 + e := by
    rcases le_total 0 u with h | h
    · have := mul_le_mul_of_nonneg_right hr1 h
      linarith
    · have := mul_le_mul_of_nonneg_right hr0 (show 0 ≤ -u by linarith)
      linarith
  have l3 : -log (1 + r * u) ≤ 1.58 * (0.193 * max (y + c) 0 + 0.071 * e) := by
    have h3 : -log (1 - (0.193 * max (y + c) 0 + 0.071 * e)) ≤ 1.58 * (0.193 * max (y + c) 0 + 0.071 * e) := neg_log_chord (m := 0.623) (by positivity) (by linarith) (by norm_num) (by norm_num) (by iv)
    have h4 : log (1 - (0.193 * max (y + c) 0 + 0.071 * e)) ≤ log (1 + r * u) := log_le_log (by linarith) (by linarith)
    linarith
  exact ⟨by linarith, by linarith, by linarith⟩

/-- One pass of Newton's method, on logarithmic scales: `y` is the logarithm of the iterate over the root, `c'` that of the right-hand side and `k` its slope. -/
theorem newton_high {Rx Rv y c c' k : ℝ} (hv : 3000 ≤ Rv) (hx : 3000 ≤ Rx) (hy : y = log Rx - log Rv) (hc : c = (log (cdSphere Rv) - log (cdSphere Rx)) / 2)
    (hcc : |c' - c| ≤ 1e-12) (hk : |k - cdS Rx / (2 * cdSphere Rx)| ≤ 1e-12) (i1 : -3 ≤ y) {u : ℝ} (hu : u = 1 - exp (-(y - c'))) :
    k ≤ 0.03 ∧ 0.35 ≤ 1 + k / (1 - k) * u ∧ (0 ≤ y → c' - log (1 + k / (1 - k) * u) ≤ 0.4 * y + 1e-11 ∧ -0.16 * y - 1e-11 ≤ c' - log (1 + k / (1 - k) * u)) ∧
      (y ≤ 0 → c' - log (1 + k / (1 - k) * u) ≤ -0.41 * y + 1e-11 ∧ 0.6 * y - 1e-11 ≤ c' - log (1 + k / (1 - k) * u)) := by
  have hv0 : 0 < Rv := by linarith
  have hx0 : 0 < Rx := by linarith
  obtain ⟨c1, c2⟩ := abs_le.1 hcc
  obtain ⟨k1, k2⟩ := abs_le.1 hk
  have hcd : 0 < cdSphere Rx := lt_of_lt_of_le (by norm_num) (cd_ge367 hx0)
  have b1 : cdS Rx / (2 * cdSphere Rx) ≤ 0.025 := by rw [div_le_iff₀ (by positivity)]; linarith [cdS_hi3000 hx]
  have b2 : -0.075 ≤ cdS Rx / (2 * cdSphere Rx) := by rw [le_div_iff₀ (by positivity)]; linarith [cdS_lo hx0]
  have hk1 : 0 < 1 - k := by linarith
  have r0 : -0.071 ≤ k / (1 - k) := by rw [le_div_iff₀ hk1]; linarith
  have r1 : k / (1 - k) ≤ 0.0257 := by rw [div_le_iff₀ hk1]; linarith
  refine ⟨by linarith, ?_⟩
  rcases le_total 0 y with h0 | h0
  · have hle : Rv ≤ Rx := (log_le_log_iff hv0 hx0).1 (by linarith)
    have m1 := cd_log_mono (p := 0.05) hv0 hle (fun R h1 h2 => cdS_hi3000 (hv.trans h1))
    have m2 := cd_log_anti (p := -0.15) hv0 hle (fun R h1 h2 => cdS_lo (hv0.trans_le h1))
    obtain ⟨s1, s2, s3⟩ := step_high_above (e := 1e-12) (by norm_num) (by norm_num) h0 (by linarith) (by linarith) r0 r1 hu
    refine ⟨s1, fun _ => ⟨by linarith, by linarith⟩, fun h3 => ?_⟩
    have : y = 0 := le_antisymm h3 h0
    rw [this] at s2 s3 ⊢
    exact ⟨by linarith, by linarith⟩
  · have hle : Rx ≤ Rv := (log_le_log_iff hx0 hv0).1 (by linarith)
    have m1 := cd_log_mono (p := 0.05) hx0 hle (fun R h1 h2 => cdS_hi3000 (hx.trans h1))
    have m2 := cd_log_anti (p := -0.15) hx0 hle (fun R h1 h2 => cdS_lo (hx0.trans_le h1))
    have hu' : u = 1 - exp (-y + c') := by rw [hu]; congr 2; ring
    obtain ⟨s1, s2, s3⟩ := step_high_below (e := 1e-12) (by norm_num) (by norm_num) (show 0 ≤ -y by linarith) (by linarith) (by linarith) (by linarith) r0 r1 hu'
    refine ⟨s1, fun h3 => ?_, fun _ => ⟨by linarith, by linarith⟩⟩
    have : y = 0 := le_antisymm h0 h3
    rw [this] at s2 s3 ⊢
    exact ⟨by linarith, by linarith⟩

end Verif.Flow
