import Verif.Lemmas.Haaland

/-!
# C129: Haaland's equation is as accurate as Colebrook's
-/

namespace Verif.Flow

open Real

theorem haaland_range {Re er : ℝ} (hRe : 2300 ≤ Re) (hRe2 : Re ≤ 1e8) (h0 : 0 ≤ er) (h1 : er ≤ 0.05) :
    4.3 ≤ -log ((er / 3.7) ^ (1.11 : ℝ) + 6.9 / Re) ∧ -log ((er / 3.7) ^ (1.11 : ℝ) + 6.9 / Re) ≤ 16.5 := by
  have hR0 : 0 < Re := by linarith
  have h2 := rough_pow_le h0 h1
  have h3 : 0 ≤ (er / 3.7) ^ (1.11 : ℝ) := by positivity
  have h4 : 6.9 / Re ≤ 6.9 / 2300 := div_le_div_of_nonneg_left (by norm_num) (by norm_num) hRe
  have h5 : 6.9 / 1e8 ≤ 6.9 / Re := div_le_div_of_nonneg_left (by norm_num) hR0 hRe2
  have h6 : 0 < 6.9 / Re := by positivity
  constructor
  · have h7 := log_le_log (by linarith) (show (er / 3.7) ^ (1.11 : ℝ) + 6.9 / Re ≤ 0.0085 + 6.9 / 2300 by linarith)
    have h8 : log (0.0085 + 6.9 / 2300) ≤ -4.3 := by iv
    linarith
  · have h7 := log_le_log (by norm_num) (show 6.9 / 1e8 ≤ (er / 3.7) ^ (1.11 : ℝ) + 6.9 / Re by linarith)
    have h8 : -16.5 ≤ log (6.9 / 1e8) := by iv
    linarith

theorem haaland_compare {Re er f : ℝ} (hRe : 2300 ≤ Re) (hRe2 : Re ≤ 1e8) (h0 : 0 ≤ er) (h1 : er ≤ 0.05) (h : Colebrook Re er f) :
    ∃ u, 0 < u ∧ 4.3 ≤ u * (log 10 / 1.8) ∧ u * (log 10 / 1.8) ≤ 16.5 ∧ fDHaaland Re er = 1 / u ^ 2 ∧ 0.9925 * u ≤ 1 / √f ∧ 1 / √f ≤ 1.0148 * u ∧ (4000 ≤ Re → 1 / √f ≤ 1.0074 * u) := by
  have hR0 : 0 < Re := by linarith
  have h10 := log10_pos
  obtain ⟨y1, y2⟩ := haaland_range hRe hRe2 h0 h1
  obtain ⟨X, hX⟩ : ∃ X, X = (er / 3.7) ^ (1.11 : ℝ) + 6.9 / Re := ⟨_, rfl⟩
  have ha : 0 ≤ (er / 3.7) ^ (1.11 : ℝ) := by positivity
  have h69 : 0 < 6.9 / Re := by positivity
  have hX0 : 0 < X := by rw [hX]; linarith
  rw [← hX] at y1 y2
  have hX1 : X < 1 := by
    by_contra hc
    have := log_nonneg (not_lt.1 hc)
    linarith
  have l0 : 0 ≤ (er / 3.7) ^ (1.11 : ℝ) / X := by positivity
  have l1 : (er / 3.7) ^ (1.11 : ℝ) / X ≤ 1 := by rw [div_le_one hX0, hX]; linarith
  have l2 : (1 - (er / 3.7) ^ (1.11 : ℝ) / X) * exp (- -log X) = 6.9 / Re := by
    rw [neg_neg, exp_log hX0, sub_mul, div_mul_cancel₀ _ hX0.ne']
    linarith
  have hu : 0 < 1.8 * -log X / log 10 := div_pos (by linarith) h10
  have r := fun κ (hκ : 0 < κ) => colebrook_reduced hR0 h0 hκ hX hX1
  have hMp : 0 < hM 0.9925 (-log X) ((er / 3.7) ^ (1.11 : ℝ) / X) := by
    have h2 := le_hM (κ := 0.9925) (Y := -log X) (l0 := 0) (c := 0.9925 * hc1 * hYf (-log X)) le_rfl l0 l1 le_rfl
    rw [zero_rpow (by norm_num), zero_add, sub_zero, one_mul] at h2
    refine lt_of_lt_of_le (lt_min ?_ one_pos) h2
    have h3 : 0 < -log X := by linarith
    have := hc1_pos
    unfold hYf
    positivity
  have c2 : 0 ≤ 2 / log 10 := by positivity
  refine ⟨1.8 * -log X / log 10, hu, ?_, ?_, ?_, ?_, ?_, fun h4 => ?_⟩
  · rw [show 1.8 * -log X / log 10 * (log 10 / 1.8) = -log X by field_simp]; exact y1
  · rw [show 1.8 * -log X / log 10 * (log 10 / 1.8) = -log X by field_simp]; exact y2
  · unfold fDHaaland logb
    rw [← hX]
    field_simp
  · refine (colebrook_compare hR0 h0 (by positivity) h).2 ?_
    rw [r _ (by norm_num)]
    exact mul_nonpos_of_nonneg_of_nonpos c2 (haaland_up l0 l1 y1 hMp)
  · refine (colebrook_compare hR0 h0 (by positivity) h).1 ?_
    rw [r _ (by norm_num)]
    exact mul_nonneg c2 (haaland_lo1 l0 l1 y1 y2 (by rw [l2]; exact div_le_div_of_nonneg_left (by norm_num) (by norm_num) hRe))
  · refine (colebrook_compare hR0 h0 (by positivity) h).1 ?_
    rw [r _ (by norm_num)]
    exact mul_nonneg c2 (haaland_lo2 l0 l1 y1 y2 (by rw [l2]; exact div_le_div_of_nonneg_left (by norm_num) (by norm_num) h4))

/-- **C129.** Haaland's explicit friction factor is within 1.5 % of the solution of Colebrook's equation for `4000 ≤ Re ≤ 1e8` and relative roughness up to 0.05. -/
theorem C129_haaland {Re er f : ℝ} (hRe : 4000 ≤ Re) (hRe2 : Re ≤ 1e8) (h0 : 0 ≤ er) (h1 : er ≤ 0.05) (h : Colebrook Re er f) :
    0.985 * f ≤ fDHaaland Re er ∧ fDHaaland Re er ≤ 1.015 * f := by
  obtain ⟨u, hu, -, -, e, b1, -, b2⟩ := haaland_compare (by linarith) hRe2 h0 h1 h
  have hf := sqrt_pos.2 h.1
  have b2 := b2 hRe
  have hfs : f = 1 / (1 / √f) ^ 2 := by rw [div_pow, sq_sqrt h.1.le, one_pow, one_div_one_div]
  have hs : 0 < 1 / √f := by positivity
  rw [e]
  conv_lhs => rw [hfs]
  conv_rhs => rw [hfs]
  generalize 1 / √f = s at *
  constructor
  · rw [mul_one_div, div_le_div_iff₀ (by positivity) (by positivity)]
    nlinarith
  · rw [mul_one_div, div_le_div_iff₀ (by positivity) (by positivity)]
    nlinarith

/-- **C129.** From the end of laminar flow, `2300 ≤ Re`, it is at most 1.5 % below and 3 % above. -/
theorem C129_haaland_transition {Re er f : ℝ} (hRe : 2300 ≤ Re) (hRe2 : Re ≤ 1e8) (h0 : 0 ≤ er) (h1 : er ≤ 0.05) (h : Colebrook Re er f) :
    0.985 * f ≤ fDHaaland Re er ∧ fDHaaland Re er ≤ 1.03 * f := by
  obtain ⟨u, hu, -, -, e, b1, b2, -⟩ := haaland_compare (by linarith) hRe2 h0 h1 h
  have hf := sqrt_pos.2 h.1
  have hfs : f = 1 / (1 / √f) ^ 2 := by rw [div_pow, sq_sqrt h.1.le, one_pow, one_div_one_div]
  have hs : 0 < 1 / √f := by positivity
  rw [e]
  conv_lhs => rw [hfs]
  conv_rhs => rw [hfs]
  generalize 1 / √f = s at *
  constructor
  · rw [mul_one_div, div_le_div_iff₀ (by positivity) (by positivity)]
    nlinarith
  · rw [mul_one_div, div_le_div_iff₀ (by positivity) (by positivity)]
    nlinarith

/-- Water in a drawn tube and in a rough pipe: solutions exist and the hypotheses hold. -/
example : (∃ f, Colebrook 5e4 (0.0015 / 25) f ∧ 0.985 * f ≤ fDHaaland 5e4 (0.0015 / 25) ∧ fDHaaland 5e4 (0.0015 / 25) ≤ 1.015 * f) ∧
    ∃ f, Colebrook 3000 0.05 f ∧ 0.985 * f ≤ fDHaaland 3000 0.05 ∧ fDHaaland 3000 0.05 ≤ 1.03 * f := by
  obtain ⟨f, hf⟩ := C86_colebrook_exists (Re := 5e4) (er := 0.0015 / 25) (by norm_num) (by norm_num) (by norm_num)
  obtain ⟨g, hg⟩ := C86_colebrook_exists (Re := 3000) (er := 0.05) (by norm_num) (by norm_num) (by norm_num)
  exact ⟨⟨f, hf, C129_haaland (by norm_num) (by norm_num) (by norm_num) (by norm_num) hf⟩,
    g, hg, C129_haaland_transition (by norm_num) (by norm_num) (by norm_num) (by norm_num) hg⟩

end Verif.Flow
