import Verif.Props.FlowRoots
import Verif.Lemmas.Interval
import Mathlib.Analysis.Convex.SpecificFunctions.Basic
import Mathlib.Analysis.SpecialFunctions.Pow.Deriv
import Mathlib.Analysis.Convex.SpecificFunctions.Pow

/-! # Helper lemmas: Haaland's equation against Colebrook's -/

namespace Verif.Flow

open Real

/-- The constant `2.51 * 1.8 / (6.9 ln 10)`. -/
noncomputable def hc1 : ℝ := 2.51 * 1.8 / (6.9 * log 10)

/-- `Y e^{-11/111 Y}`. -/
noncomputable def hYf (Y : ℝ) : ℝ := Y * exp (-(11 / 111 * Y))

theorem hc1_pos : 0 < hc1 := by unfold hc1; have := log10_pos; positivity

/-- The argument of the logarithm relative to its fully rough value. -/
noncomputable def hM (κ Y l : ℝ) : ℝ := l ^ ((100 : ℝ) / 111) + (1 - l) * (κ * hc1 * hYf Y)

theorem hM_le {κ Y l l0 : ℝ} (h0 : 0 ≤ l) (h1 : l ≤ 1) (hl0 : 0 < l0) (hc : κ * hc1 * hYf Y ≤ 100 / 111 * l0 ^ (-(11 : ℝ) / 111)) :
    hM κ Y l ≤ 11 / 111 * l0 ^ ((100 : ℝ) / 111) + 100 / 111 * l0 ^ (-(11 : ℝ) / 111) := by
  have t : (1 + (l / l0 - 1)) ^ ((100 : ℝ) / 111) ≤ 1 + 100 / 111 * (l / l0 - 1) :=
    rpow_one_add_le_one_add_mul_self (by have : 0 ≤ l / l0 := by positivity
                                         linarith) (by norm_num) (by norm_num)
  rw [add_sub_cancel, div_rpow h0 hl0.le, div_le_iff₀ (by positivity)] at t
  have e : l0 ^ ((100 : ℝ) / 111) = l0 * l0 ^ (-(11 : ℝ) / 111) := by
    rw [← rpow_one_add' hl0.le (by norm_num)]; norm_num
  unfold hM
  rw [e] at t ⊢
  have hp : 0 < l0 ^ (-(11 : ℝ) / 111) := by positivity
  generalize l0 ^ (-(11 : ℝ) / 111) = q at *
  have t2 : (1 + 100 / 111 * (l / l0 - 1)) * (l0 * q) = q * (l0 * (11 / 111) + 100 / 111 * l) := by field_simp; ring
  have t3 := mul_le_mul_of_nonneg_left hc (show 0 ≤ 1 - l by linarith)
  nlinarith

theorem le_hM {κ Y l l0 c : ℝ} (hl0 : 0 ≤ l0) (h0 : l0 ≤ l) (h1 : l ≤ 1) (hc : c ≤ κ * hc1 * hYf Y) : min (l0 ^ ((100 : ℝ) / 111) + (1 - l0) * c) 1 ≤ hM κ Y l := by
  have hconc : ConcaveOn ℝ (Set.Ici 0) fun x : ℝ => x ^ ((100 : ℝ) / 111) + (1 - x) * c := by
    have c1 := Real.concaveOn_rpow (p := (100 : ℝ) / 111) (by norm_num) (by norm_num)
    have c2 : ConcaveOn ℝ (Set.Ici (0 : ℝ)) fun x : ℝ => (1 - x) * c := by
      refine ⟨convex_Ici 0, fun x _ y _ a b _ _ hab => le_of_eq ?_⟩
      simp only [smul_eq_mul]
      linear_combination c * hab
    exact c1.add c2
  have := hconc.min_le_of_mem_Icc (x := l0) (y := 1) (z := l) hl0 (by simp) ⟨h0, h1⟩
  simp only [one_rpow, sub_self, zero_mul, add_zero] at this
  refine this.trans ?_
  unfold hM
  have := mul_le_mul_of_nonneg_left hc (show 0 ≤ 1 - l by linarith)
  linarith

theorem hY_mono {a b : ℝ} (h0 : 0 < a) (hab : a ≤ b) (hb : b ≤ 111 / 11) : hYf a ≤ hYf b := by
  have hb0 := h0.trans_le hab
  unfold hYf
  have h1 : log a ≤ log b + (a / b - 1) := by
    have := log_le_sub_one_of_pos (show 0 < a / b by positivity)
    rw [log_div h0.ne' hb0.ne'] at this
    linarith
  have h2 : a / b - 1 = -(b - a) * (1 / b) := by field_simp; ring
  have h3 : 11 / 111 ≤ 1 / b := by rw [div_le_div_iff₀ (by norm_num) hb0]; linarith
  rw [← exp_log h0, ← exp_log hb0, ← exp_add, ← exp_add, exp_le_exp, exp_log h0, exp_log hb0]
  nlinarith

theorem hY_le_peak {a : ℝ} (h0 : 0 < a) : hYf a ≤ hYf (111 / 11) := by
  have hb0 : (0 : ℝ) < 111 / 11 := by norm_num
  unfold hYf
  have h1 : log a ≤ log (111 / 11) + (a / (111 / 11) - 1) := by
    have := log_le_sub_one_of_pos (show 0 < a / (111 / 11) by positivity)
    rw [log_div h0.ne' hb0.ne'] at this
    linarith
  rw [← exp_log h0, ← exp_log hb0, ← exp_add, ← exp_add, exp_le_exp, exp_log h0, exp_log hb0]
  linarith

/-- `log (c hYf) + m Y` is concave, so its minimum is at an end. -/
theorem conc_min {c m a b Y : ℝ} (hc : 0 < c) (ha : 0 < a) (h1 : a ≤ Y) (h2 : Y ≤ b) (fa : 0 ≤ log (c * hYf a) + m * a) (fb : 0 ≤ log (c * hYf b) + m * b) :
    0 ≤ log (c * hYf Y) + m * Y := by
  have hY0 := ha.trans_le h1
  have hb0 := hY0.trans_le h2
  have e : ∀ x, 0 < x → log (c * hYf x) + m * x = log c + log x + (m - 11 / 111) * x := by
    intro x hx
    unfold hYf
    rw [log_mul hc.ne' (by positivity), log_mul hx.ne' (exp_pos _).ne', log_exp]
    ring
  rw [e a ha] at fa
  rw [e b hb0] at fb
  rw [e Y hY0]
  have hconc : ConcaveOn ℝ (Set.Ioi 0) fun x : ℝ => log x + (log c + (m - 11 / 111) * x) := by
    refine strictConcaveOn_log_Ioi.concaveOn.add ?_
    refine ⟨convex_Ioi 0, fun x _ y _ a b _ _ hab => le_of_eq ?_⟩
    simp only [smul_eq_mul]
    linear_combination (log c) * hab
  have := hconc.min_le_of_mem_Icc (x := a) (y := b) (z := Y) ha hb0 ⟨h1, h2⟩
  have h3 : 0 ≤ min (log a + (log c + (m - 11 / 111) * a)) (log b + (log c + (m - 11 / 111) * b)) := le_min (by linarith) (by linarith)
  linarith

/-- Colebrook's left-hand side at `κ` times Haaland's value, in the reduced variables. -/
theorem colebrook_reduced {Re er κ : ℝ} (hRe : 0 < Re) (h0 : 0 ≤ er) (hκ : 0 < κ) {X : ℝ} (hX : X = (er / 3.7) ^ (1.11 : ℝ) + 6.9 / Re) (hX1 : X < 1) :
    κ * (1.8 * -log X / log 10) + 2 * logb 10 (er / 3.7 + 2.51 * (κ * (1.8 * -log X / log 10)) / Re) =
      2 / log 10 * (log (hM κ (-log X) ((er / 3.7) ^ (1.11 : ℝ) / X)) + (0.9 * κ - 100 / 111) * -log X) := by
  have h10 := log10_pos
  have hX0 : 0 < X := by rw [hX]; positivity
  have hY0 : 0 < -log X := by have := log_neg hX0 hX1; linarith
  have ha : 0 ≤ er / 3.7 := by positivity
  have e1 : (er / 3.7) = ((er / 3.7) ^ (1.11 : ℝ) / X) ^ ((100 : ℝ) / 111) * X ^ ((100 : ℝ) / 111) := by
    rw [← mul_rpow (by positivity) hX0.le, div_mul_cancel₀ _ hX0.ne', ← rpow_mul ha]
    norm_num
  have e2 : 6.9 / Re = (1 - (er / 3.7) ^ (1.11 : ℝ) / X) * X := by
    rw [sub_mul, div_mul_cancel₀ _ hX0.ne', hX]; ring
  have e3 : X = X ^ ((100 : ℝ) / 111) * exp (-(11 / 111 * -log X)) := by
    conv_lhs => rw [← exp_log hX0]
    rw [rpow_def_of_pos hX0, ← exp_add]
    congr 1
    ring
  have e4 : er / 3.7 + 2.51 * (κ * (1.8 * -log X / log 10)) / Re = X ^ ((100 : ℝ) / 111) * hM κ (-log X) ((er / 3.7) ^ (1.11 : ℝ) / X) := by
    have : 2.51 * (κ * (1.8 * -log X / log 10)) / Re = κ * hc1 * -log X * (6.9 / Re) := by
      unfold hc1; field_simp
    rw [this, e2]
    unfold hM hYf
    generalize (er / 3.7) ^ (1.11 : ℝ) / X = l at e1
    linear_combination e1 + κ * hc1 * -log X * (1 - l) * e3
  have hM0 : 0 < hM κ (-log X) ((er / 3.7) ^ (1.11 : ℝ) / X) := by
    have h5 : 0 < er / 3.7 + 2.51 * (κ * (1.8 * -log X / log 10)) / Re := by positivity
    rw [e4] at h5
    exact pos_of_mul_pos_right h5 (by positivity)
  rw [e4]
  unfold logb
  rw [log_mul (by positivity) hM0.ne', log_rpow hX0]
  field_simp
  ring

/-- Bounds of the solution from the sign at `κ` times Haaland's value. -/
theorem colebrook_compare {Re er f s : ℝ} (hRe : 0 < Re) (h0 : 0 ≤ er) (hs : 0 < s) (h : Colebrook Re er f) :
    (0 ≤ s + 2 * logb 10 (er / 3.7 + 2.51 * s / Re) → 1 / √f ≤ s) ∧ (s + 2 * logb 10 (er / 3.7 + 2.51 * s / Re) ≤ 0 → s ≤ 1 / √f) := by
  have hf := sqrt_pos.2 h.1
  have ht : 0 < 1 / √f := by positivity
  have he : 1 / √f + 2 * logb 10 (er / 3.7 + 2.51 * (1 / √f) / Re) = 0 := by
    have := h.2
    rw [show 2.51 / (Re * √f) = 2.51 * (1 / √f) / Re by field_simp] at this
    linarith
  have mono : ∀ x y, 0 < x → x < y → x + 2 * logb 10 (er / 3.7 + 2.51 * x / Re) < y + 2 * logb 10 (er / 3.7 + 2.51 * y / Re) := by
    intro x y hx hxy
    have : logb 10 (er / 3.7 + 2.51 * x / Re) < logb 10 (er / 3.7 + 2.51 * y / Re) := logb_lt_logb (by norm_num) (by positivity) (by gcongr)
    linarith
  constructor
  · intro h1
    by_contra hc
    have := mono s _ hs (not_le.1 hc)
    linarith
  · intro h1
    by_contra hc
    have := mono _ s ht (not_le.1 hc)
    linarith

theorem rough_pow_le {er : ℝ} (h0 : 0 ≤ er) (h1 : er ≤ 0.05) : (er / 3.7) ^ (1.11 : ℝ) ≤ 0.0085 := by
  refine (rpow_le_rpow (by positivity) (show er / 3.7 ≤ 0.05 / 3.7 by gcongr) (by norm_num)).trans ?_
  iv

/-- On a piece: Colebrook's equation is negative at 0.9925 times Haaland's `1/√f`. -/
theorem up_piece {Y Y1 Y2 l l0 : ℝ} (h0 : 0 ≤ l) (h1 : l ≤ 1) (hl0 : 0 < l0) (hY1 : Y1 ≤ Y) (hY0 : 0 < Y) (hY2 : hYf Y ≤ hYf Y2)
    (hc : 0.9925 * hc1 * hYf Y2 ≤ 100 / 111 * l0 ^ (-(11 : ℝ) / 111))
    (hm : log (11 / 111 * l0 ^ ((100 : ℝ) / 111) + 100 / 111 * l0 ^ (-(11 : ℝ) / 111)) + (0.9 * 0.9925 - 100 / 111) * Y1 ≤ 0) (hMp : 0 < hM 0.9925 Y l) :
    log (hM 0.9925 Y l) + (0.9 * 0.9925 - 100 / 111) * Y ≤ 0 := by
  have h2 : 0.9925 * hc1 * hYf Y ≤ 0.9925 * hc1 * hYf Y2 := mul_le_mul_of_nonneg_left hY2 (by have := hc1_pos; positivity)
  have h3 := log_le_log hMp (hM_le h0 h1 hl0 (h2.trans hc))
  linarith

/-- On a piece: Colebrook's equation is positive at `κ` times Haaland's `1/√f`. -/
theorem lo_piece {κ Y Y1 l l0 : ℝ} (hl0 : 0 ≤ l0) (h0 : l0 ≤ l) (h1 : l ≤ 1) (hY1 : Y1 ≤ Y) (hY0 : 0 < Y1) (hY2 : Y ≤ 111 / 11) (hκ : 1.002 ≤ κ)
    (hm : 0 ≤ log (l0 ^ ((100 : ℝ) / 111) + (1 - l0) * (κ * hc1 * hYf Y1)) + (0.9 * κ - 100 / 111) * Y1) :
    0 ≤ log (hM κ Y l) + (0.9 * κ - 100 / 111) * Y := by
  have h2 : κ * hc1 * hYf Y1 ≤ κ * hc1 * hYf Y := mul_le_mul_of_nonneg_left (hY_mono hY0 hY1 hY2) (by have := hc1_pos; positivity)
  have h3 := le_hM hl0 h0 h1 h2
  have hY : 0 < hYf Y1 := by unfold hYf; positivity
  have h4 : 0 < l0 ^ ((100 : ℝ) / 111) + (1 - l0) * (κ * hc1 * hYf Y1) := by
    rcases eq_or_lt_of_le hl0 with h | h
    · rw [← h]
      have := hc1_pos
      rw [zero_rpow (by norm_num)]
      positivity
    · have := hc1_pos
      have : 0 ≤ (1 - l0) * (κ * hc1 * hYf Y1) := mul_nonneg (by linarith) (by positivity)
      positivity
  have h5 : (0.9 * κ - 100 / 111) * Y1 ≤ (0.9 * κ - 100 / 111) * Y := mul_le_mul_of_nonneg_left hY1 (by linarith)
  rcases le_total (l0 ^ ((100 : ℝ) / 111) + (1 - l0) * (κ * hc1 * hYf Y1)) 1 with h | h
  · rw [min_eq_left h] at h3
    have := log_le_log h4 h3
    linarith
  · rw [min_eq_right h] at h3
    have h6 := log_nonneg h3
    have : 0 ≤ (0.9 * κ - 100 / 111) * Y := mul_nonneg (by linarith) (by linarith)
    linarith

theorem haaland_up {Y l : ℝ} (h0 : 0 ≤ l) (h1 : l ≤ 1) (hY : 4.3 ≤ Y) (hMp : 0 < hM 0.9925 Y l) : log (hM 0.9925 Y l) + (0.9 * 0.9925 - 100 / 111) * Y ≤ 0 := by
  rcases le_total Y 7.1 with h | h
  · exact up_piece (Y1 := 4.3) (Y2 := 7.1) (l0 := 0.3794) h0 h1 (by norm_num) (by assumption) (by linarith) (hY_mono (by linarith) h (by norm_num)) (by unfold hc1 hYf; iv) (by iv) hMp
  rcases le_total Y 8.1 with h | h
  · exact up_piece (Y1 := 7.1) (Y2 := 8.1) (l0 := 0.2729) h0 h1 (by norm_num) (by assumption) (by linarith) (hY_mono (by linarith) h (by norm_num)) (by unfold hc1 hYf; iv) (by iv) hMp
  rcases le_total Y 8.6 with h | h
  · exact up_piece (Y1 := 8.1) (Y2 := 8.6) (l0 := 0.2458) h0 h1 (by norm_num) (by assumption) (by linarith) (hY_mono (by linarith) h (by norm_num)) (by unfold hc1 hYf; iv) (by iv) hMp
  rcases le_total Y 9.0 with h | h
  · exact up_piece (Y1 := 8.6) (Y2 := 9.0) (l0 := 0.2318) h0 h1 (by norm_num) (by assumption) (by linarith) (hY_mono (by linarith) h (by norm_num)) (by unfold hc1 hYf; iv) (by iv) hMp
  rcases le_total Y 9.4 with h | h
  · exact up_piece (Y1 := 9.0) (Y2 := 9.4) (l0 := 0.223) h0 h1 (by norm_num) (by assumption) (by linarith) (hY_mono (by linarith) h (by norm_num)) (by unfold hc1 hYf; iv) (by iv) hMp
  exact up_piece (Y1 := 9.4) (Y2 := 111 / 11) (l0 := 0.2175) h0 h1 (by norm_num) h (by linarith) (hY_le_peak (by linarith)) (by unfold hc1 hYf; iv) (by iv) hMp

theorem haaland_lo1 {Y l : ℝ} (h0 : 0 ≤ l) (h1 : l ≤ 1) (hY : 4.3 ≤ Y) (hY2 : Y ≤ 16.5) (hl : (1 - l) * exp (-Y) ≤ 6.9 / 2300) :
    0 ≤ log (hM 1.0148 Y l) + (0.9 * 1.0148 - 100 / 111) * Y := by
  have hl' : ∀ b : ℝ, Y ≤ b → 1 - 6.9 / 2300 * exp b ≤ l := fun b hb => by
    have h2 := mul_le_mul_of_nonneg_right hl (exp_pos Y).le
    rw [mul_assoc, ← exp_add, neg_add_cancel, exp_zero, mul_one] at h2
    have h3 : 6.9 / 2300 * exp Y ≤ 6.9 / 2300 * exp b := by gcongr
    linarith
  rcases le_total Y 5.0 with h | h
  · have h2 : (1 - 6.9 / 2300 * exp 5.0 : ℝ) ≥ 0.5547 := by iv
    exact lo_piece (κ := 1.0148) (Y1 := 4.3) (l0 := 0.5547) (by norm_num) (h2.trans (hl' 5.0 h)) h1 (by assumption) (by norm_num) (by linarith) (by norm_num) (by unfold hc1 hYf; iv)
  rcases le_total Y 5.55 with h | h
  · have h2 : (1 - 6.9 / 2300 * exp 5.55 : ℝ) ≥ 0.2282 := by iv
    exact lo_piece (κ := 1.0148) (Y1 := 5.0) (l0 := 0.2282) (by norm_num) (h2.trans (hl' 5.55 h)) h1 (by assumption) (by norm_num) (by linarith) (by norm_num) (by unfold hc1 hYf; iv)
  rcases le_total Y 5.75 with h | h
  · have h2 : (1 - 6.9 / 2300 * exp 5.75 : ℝ) ≥ 0.0574 := by iv
    exact lo_piece (κ := 1.0148) (Y1 := 5.55) (l0 := 0.0574) (by norm_num) (h2.trans (hl' 5.75 h)) h1 (by assumption) (by norm_num) (by linarith) (by norm_num) (by unfold hc1 hYf; iv)
  rcases le_total Y 5.85 with h | h
  · refine lo_piece (κ := 1.0148) (Y1 := 5.75) (l0 := 0) le_rfl h0 h1 (by assumption) (by norm_num) (by linarith) (by norm_num) ?_
    rw [zero_rpow (by norm_num), zero_add, sub_zero, one_mul]
    unfold hc1 hYf; iv
  have h3 : 0 ≤ log (1.0148 * hc1 * hYf Y) + (0.9 * 1.0148 - 100 / 111) * Y :=
    conc_min (a := 5.85) (b := 16.5) (by have := hc1_pos; positivity) (by norm_num) h hY2 (by unfold hc1 hYf; iv) (by unfold hc1 hYf; iv)
  have h4 := le_hM (κ := 1.0148) (Y := Y) (l0 := 0) le_rfl h0 h1 le_rfl
  rw [zero_rpow (by norm_num), zero_add, sub_zero, one_mul] at h4
  have hY0 : 0 < Y := by linarith
  have hYp : 0 < hYf Y := by unfold hYf; positivity
  have hp : 0 < 1.0148 * hc1 * hYf Y := by have := hc1_pos; positivity
  rcases le_total (1.0148 * hc1 * hYf Y) 1 with h5 | h5
  · rw [min_eq_left h5] at h4
    have := log_le_log hp h4
    linarith
  · rw [min_eq_right h5] at h4
    have := log_nonneg h4
    have : 0 ≤ (0.9 * 1.0148 - 100 / 111) * Y := mul_nonneg (by norm_num) (by linarith)
    linarith

theorem haaland_lo2 {Y l : ℝ} (h0 : 0 ≤ l) (h1 : l ≤ 1) (hY : 4.3 ≤ Y) (hY2 : Y ≤ 16.5) (hl : (1 - l) * exp (-Y) ≤ 6.9 / 4000) :
    0 ≤ log (hM 1.0074 Y l) + (0.9 * 1.0074 - 100 / 111) * Y := by
  have hl' : ∀ b : ℝ, Y ≤ b → 1 - 6.9 / 4000 * exp b ≤ l := fun b hb => by
    have h2 := mul_le_mul_of_nonneg_right hl (exp_pos Y).le
    rw [mul_assoc, ← exp_add, neg_add_cancel, exp_zero, mul_one] at h2
    have h3 : 6.9 / 4000 * exp Y ≤ 6.9 / 4000 * exp b := by gcongr
    linarith
  rcases le_total Y 4.85 with h | h
  · have h2 : (1 - 6.9 / 4000 * exp 4.85 : ℝ) ≥ 0.7796 := by iv
    exact lo_piece (κ := 1.0074) (Y1 := 4.3) (l0 := 0.7796) (by norm_num) (h2.trans (hl' 4.85 h)) h1 (by assumption) (by norm_num) (by linarith) (by norm_num) (by unfold hc1 hYf; iv)
  rcases le_total Y 5.5 with h | h
  · have h2 : (1 - 6.9 / 4000 * exp 5.5 : ℝ) ≥ 0.5779 := by iv
    exact lo_piece (κ := 1.0074) (Y1 := 4.85) (l0 := 0.5779) (by norm_num) (h2.trans (hl' 5.5 h)) h1 (by assumption) (by norm_num) (by linarith) (by norm_num) (by unfold hc1 hYf; iv)
  rcases le_total Y 6.1 with h | h
  · have h2 : (1 - 6.9 / 4000 * exp 6.1 : ℝ) ≥ 0.2308 := by iv
    exact lo_piece (κ := 1.0074) (Y1 := 5.5) (l0 := 0.2308) (by norm_num) (h2.trans (hl' 6.1 h)) h1 (by assumption) (by norm_num) (by linarith) (by norm_num) (by unfold hc1 hYf; iv)
  rcases le_total Y 6.3 with h | h
  · have h2 : (1 - 6.9 / 4000 * exp 6.3 : ℝ) ≥ 0.0606 := by iv
    exact lo_piece (κ := 1.0074) (Y1 := 6.1) (l0 := 0.0606) (by norm_num) (h2.trans (hl' 6.3 h)) h1 (by assumption) (by norm_num) (by linarith) (by norm_num) (by unfold hc1 hYf; iv)
  rcases le_total Y 6.4 with h | h
  · refine lo_piece (κ := 1.0074) (Y1 := 6.3) (l0 := 0) le_rfl h0 h1 (by assumption) (by norm_num) (by linarith) (by norm_num) ?_
    rw [zero_rpow (by norm_num), zero_add, sub_zero, one_mul]
    unfold hc1 hYf; iv
  have h3 : 0 ≤ log (1.0074 * hc1 * hYf Y) + (0.9 * 1.0074 - 100 / 111) * Y :=
    conc_min (a := 6.4) (b := 16.5) (by have := hc1_pos; positivity) (by norm_num) h hY2 (by unfold hc1 hYf; iv) (by unfold hc1 hYf; iv)
  have h4 := le_hM (κ := 1.0074) (Y := Y) (l0 := 0) le_rfl h0 h1 le_rfl
  rw [zero_rpow (by norm_num), zero_add, sub_zero, one_mul] at h4
  have hY0 : 0 < Y := by linarith
  have hYp : 0 < hYf Y := by unfold hYf; positivity
  have hp : 0 < 1.0074 * hc1 * hYf Y := by have := hc1_pos; positivity
  rcases le_total (1.0074 * hc1 * hYf Y) 1 with h5 | h5
  · rw [min_eq_left h5] at h4
    have := log_le_log hp h4
    linarith
  · rw [min_eq_right h5] at h4
    have := log_nonneg h4
    have : 0 ≤ (0.9 * 1.0074 - 100 / 111) * Y := mul_nonneg (by norm_num) (by linarith)
    linarith

end Verif.Flow
