import Verif.Model.Correlations
import Verif.Lemmas.Flow
import Verif.Lemmas.Vaporization

/-! # Helper lemmas: forced-convection Nusselt correlations -/

namespace Verif.Correlations

open Real Flow

theorem graetz_lt {x y : ℝ} (hx : 0 ≤ x) (h : x < y) :
    0.0668 * x / (1 + 0.04 * x ^ (2 / 3 : ℝ)) < 0.0668 * y / (1 + 0.04 * y ^ (2 / 3 : ℝ)) := by
  have hy : 0 < y := hx.trans_lt h
  set a := x ^ (1 / 3 : ℝ) with ha
  set b := y ^ (1 / 3 : ℝ) with hb
  have ha0 : 0 ≤ a := rpow_nonneg hx _
  have hab : a < b := rpow_lt_rpow hx h (by norm_num)
  have ea : x = a ^ 3 := by rw [ha, ← rpow_natCast, ← rpow_mul hx]; norm_num
  have eb : y = b ^ 3 := by rw [hb, ← rpow_natCast, ← rpow_mul hy.le]; norm_num
  have ea2 : x ^ (2 / 3 : ℝ) = a ^ 2 := by rw [ha, ← rpow_natCast, ← rpow_mul hx]; norm_num
  have eb2 : y ^ (2 / 3 : ℝ) = b ^ 2 := by rw [hb, ← rpow_natCast, ← rpow_mul hy.le]; norm_num
  rw [ea2, eb2]
  clear_value a b
  subst ea eb
  have hb0 : 0 < b := ha0.trans_lt hab
  rw [div_lt_div_iff₀ (by positivity) (by positivity)]
  have h1 : a ^ 3 < b ^ 3 := h
  have h2 : a ^ 3 * b ^ 2 ≤ b ^ 3 * a ^ 2 := by
    have : b ^ 3 * a ^ 2 - a ^ 3 * b ^ 2 = (a * b) ^ 2 * (b - a) := by ring
    nlinarith [mul_nonneg (sq_nonneg (a * b)) (sub_nonneg.2 hab.le)]
  nlinarith

theorem log_harg2 {Re er : ℝ} (hR : 2300 ≤ Re) (h0 : 0 ≤ er) (h1 : er ≤ 0.05) : log (harg Re er) < -4 := by
  have hpos := harg_pos (by linarith : 0 < Re) h0
  have hr : (er / 3.7) ^ (1.11 : ℝ) ≤ 0.0136 := by
    have hb : er / 3.7 ≤ 0.0136 := by rw [div_le_iff₀ (by norm_num)]; linarith
    rcases h0.eq_or_lt with h | h
    · rw [← h, zero_div, zero_rpow (by norm_num)]; norm_num
    · calc (er / 3.7) ^ (1.11 : ℝ) ≤ (er / 3.7) ^ (1 : ℝ) := rpow_le_rpow_of_exponent_ge (by positivity) (hb.trans (by norm_num)) (by norm_num)
        _ = er / 3.7 := rpow_one _
        _ ≤ _ := hb
  have h2 : 6.9 / Re ≤ 6.9 / 2300 := div_le_div_of_nonneg_left (by norm_num) (by norm_num) hR
  have h3 : harg Re er ≤ 0.0166 := by
    unfold harg
    calc _ ≤ 0.0136 + 6.9 / 2300 := add_le_add hr h2
      _ = _ := by norm_num
  have h4 : (0.0166 : ℝ) < exp (-4) := by
    have h5 := exp_neg_one_gt_d9
    have h6 : exp (-4) = exp (-1) ^ 4 := by rw [← exp_nat_mul]; norm_num
    rw [h6]
    calc (0.0166 : ℝ) < 0.36787 ^ 4 := by norm_num
      _ ≤ _ := by gcongr; linarith
  have := log_lt_log hpos (h3.trans_lt h4)
  rwa [log_exp] at this

/-- `sqrt(fD / 8)` in terms of the logarithm. -/
theorem sqrt_f {Re er : ℝ} (h : log (harg Re er) < 0) : √(fDHaaland Re er / 8) = log 10 / (1.8 * √8) / -log (harg Re er) := by
  have h8 : (0 : ℝ) < √8 := by positivity
  have := log10_pos
  have h0 : 0 < -log (harg Re er) := by linarith
  rw [sqrt_eq_iff_mul_self_eq (by rw [fDHaaland_eq]; positivity) (by positivity), fDHaaland_eq, logb]
  have e8 : √8 * √8 = 8 := mul_self_sqrt (by norm_num)
  have hne : log (harg Re er) ≠ 0 := h.ne
  rw [show (8 : ℝ) = √8 * √8 from e8.symm]
  field_simp
  rw [sqrt_sq h8.le]

theorem sqrt8_bounds : (2.82 : ℝ) < √8 ∧ √8 < 2.83 := by
  constructor
  · rw [lt_sqrt (by norm_num)]; norm_num
  · rw [sqrt_lt' (by norm_num)]; norm_num

theorem tube_den_pos {Re Pr er : ℝ} (hR : 2300 ≤ Re) (h0 : 0 ≤ er) (h1 : er ≤ 0.05) (hP : 0.5 ≤ Pr) :
    0 < 1 + 12.7 * √(fDHaaland Re er / 8) * (Pr ^ (2 / 3 : ℝ) - 1) := by
  have hl := log_harg2 hR h0 h1
  have hP0 : (0 : ℝ) < Pr := lt_of_lt_of_le (by norm_num) hP
  have hp : (0.62 : ℝ) ≤ Pr ^ (2 / 3 : ℝ) := by
    refine le_of_pow_le_pow_left₀ (n := 3) (by norm_num) (rpow_nonneg hP0.le _) ?_
    rw [← rpow_natCast, ← rpow_natCast, ← rpow_mul hP0.le]
    norm_num
    nlinarith
  have hs : √(fDHaaland Re er / 8) < 0.12 := by
    rw [sqrt_f (by linarith), div_lt_iff₀ (by linarith), div_lt_iff₀ (by have := sqrt8_bounds.1; positivity)]
    have := Vaporization.log_ten_bounds.2
    have := sqrt8_bounds.1
    nlinarith
  have hs0 := sqrt_nonneg (fDHaaland Re er / 8)
  nlinarith

theorem plate_lam {Re : ℝ} (Pr : ℝ) (h : Re < 5e5) : (nuPlate Re Pr).1 = 0.664 * Re ^ (1 / 2 : ℝ) * Pr ^ (1 / 3 : ℝ) := if_pos h

theorem plate_turb {Re : ℝ} (Pr : ℝ) (h : 5e5 ≤ Re) :
    (nuPlate Re Pr).1 = (0.037 * Re ^ (4 / 5 : ℝ) - (0.037 * 5e5 ^ (4 / 5 : ℝ) - 0.664 * 5e5 ^ (1 / 2 : ℝ))) * Pr ^ (1 / 3 : ℝ) := if_neg (not_lt.2 h)

end Verif.Correlations
