import Verif.Props.PrvGas
import Mathlib.Analysis.Complex.ExponentialBounds

/-! # Helper lemmas: (two-phase): the omega method -/

namespace Verif.Prv

open Real

theorem omegaEta_mem {w : ℝ} (hw : 0 < w) (hw1 : w ≤ 12500) : 0 < omegaEta w ∧ omegaEta w < 1 := by
  have h1 : √w ≤ 111.804 := by rw [sqrt_le_left (by norm_num)]; norm_num; linarith
  have h2 := rpow_pos_of_pos hw (-0.56261 : ℝ)
  have h3 : 0 < (1.0446 - 0.0093431 * √w) * w ^ (-0.56261 : ℝ) := mul_pos (by norm_num at *; linarith) h2
  have h4 : log w < 10 := by
    have e1 : (2.718 : ℝ) ≤ exp 1 := by have := exp_one_gt_d9; linarith
    rw [log_lt_iff_lt_exp hw]
    have e2 : exp 10 = exp 1 ^ 10 := by rw [← exp_nat_mul]; norm_num
    rw [e2]
    have := pow_le_pow_left₀ (by norm_num) e1 10
    norm_num at this
    linarith
  unfold omegaEta
  exact ⟨rpow_pos_of_pos (by linarith) _, rpow_lt_one_of_one_lt_of_neg (by linarith) (by linarith)⟩

theorem omegaG_pos {P1 P2 v1 w e : ℝ} (hP2 : 0 < P2) (hP : P2 < P1) (hv : 0 < v1) (hw : 0 < w) (he : 0 < e) : 0 < omegaG P1 P2 v1 w e := by
  have hP1 := hP2.trans hP
  unfold omegaG
  split_ifs with h
  · exact mul_pos he (sqrt_pos.2 (by positivity))
  · have hr : 0 < P2 / P1 := by positivity
    have hr1 : P2 / P1 < 1 := (div_lt_one hP1).2 hP
    generalize P2 / P1 = r at *
    have hl := log_le_sub_one_of_pos hr
    have h1 : 0 < -2 * (w * log r + (w - 1) * (1 - r)) := by nlinarith
    have h2 : 1 < 1 / r := by rw [lt_div_iff₀ hr]; linarith
    have h3 : 0 < w * (1 / r - 1) + 1 := by nlinarith
    exact div_pos (mul_pos (sqrt_pos.2 h1) (sqrt_pos.2 (by positivity))) h3

end Verif.Prv
