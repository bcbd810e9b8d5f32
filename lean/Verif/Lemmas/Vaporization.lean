import Verif.Model.Vaporization
import Mathlib.Analysis.SpecialFunctions.Log.Deriv
import Mathlib.Analysis.Complex.ExponentialBounds

/-! # Helper lemmas: vapour-pressure and enthalpy-of-vaporisation estimates -/

namespace Verif.Vaporization

open Real

theorem odiv_pos {a b : ℝ} (h : 0 < b) : odiv a b = some (a / b) := if_neg h.ne'

theorem fpow_nonneg {x p : ℝ} (h : 0 ≤ x) : fpow x p = some (x ^ p) := if_neg (not_lt.2 h)

/-- Bounds of `ln 10`, from those of `ln 2` and `10^28 ≈ 2^93`. -/
theorem log_ten_bounds : 2.302580 < log 10 ∧ log 10 < 2.302590 := by
  have e : 28 * log 10 = 93 * log 2 + log (10 ^ 28 / 2 ^ 93) := by
    rw [log_div (by norm_num) (by norm_num), log_pow, log_pow]; push_cast; ring
  have l1 := log_two_gt_d9
  have l2 := log_two_lt_d9
  have u : log (10 ^ 28 / 2 ^ 93) ≤ 10 ^ 28 / 2 ^ 93 - 1 := log_le_sub_one_of_pos (by norm_num)
  have l : 1 - (10 ^ 28 / 2 ^ 93 : ℝ)⁻¹ ≤ log (10 ^ 28 / 2 ^ 93) := one_sub_inv_le_log_of_pos (by norm_num)
  norm_num at u l l1 l2 e ⊢
  constructor <;> linarith

theorem log_sub_le {s t : ℝ} (hs : 0 < s) (hst : s < t) : log t - log s ≤ (t - s) / s := by
  rw [← log_div (hs.trans hst).ne' hs.ne']
  have := log_le_sub_one_of_pos (div_pos (hs.trans hst) hs)
  have e : t / s - 1 = (t - s) / s := by field_simp
  linarith

theorem inv_sub_ge {s t : ℝ} (hs : 0 < s) (hst : s < t) (ht : t ≤ 1) : (t - s) / s ≤ 1 / s - 1 / t := by
  have h0 := hs.trans hst
  have e : 1 / s - 1 / t = (t - s) / s * (1 / t) := by field_simp
  rw [e]
  have : 1 ≤ 1 / t := by rw [le_div_iff₀ h0]; linarith
  exact le_mul_of_one_le_right (div_nonneg (by linarith) hs.le) this

/-- Both functions of the Lee-Kesler correlation increase up to the critical point. -/
theorem fLK_strictMono {s t : ℝ} (hs : 0 < s) (hst : s < t) (ht : t ≤ 1) : (fLK s).1 < (fLK t).1 ∧ (fLK s).2 < (fLK t).2 := by
  have a := log_sub_le hs hst
  have b := inv_sub_ge hs hst ht
  have c : s ^ 6 < t ^ 6 := pow_lt_pow_left₀ hst hs.le (by norm_num)
  have d : 0 < (t - s) / s := div_pos (by linarith) hs
  have e0 : (6.09648 : ℝ) / s = 6.09648 * (1 / s) := by ring
  have e1 : (6.09648 : ℝ) / t = 6.09648 * (1 / t) := by ring
  have e2 : (15.6875 : ℝ) / s = 15.6875 * (1 / s) := by ring
  have e3 : (15.6875 : ℝ) / t = 15.6875 * (1 / t) := by ring
  simp only [fLK, e0, e1, e2, e3]
  generalize (t - s) / s = x at *
  generalize 1 / s = y at *
  generalize 1 / t = z at *
  generalize s ^ 6 = u at *
  generalize t ^ 6 = v at *
  norm_num
  constructor <;> linarith

/-- The second Lee-Kesler function is negative up to `0.9999 Tc`. -/
theorem fLK_neg {t : ℝ} (h0 : 0 < t) (h1 : t ≤ 0.9999) : (fLK t).2 < 0 := by
  have l := one_sub_inv_le_log_of_pos h0
  have c : t ^ 6 ≤ 0.9999 ^ 6 := pow_le_pow_left₀ h0.le h1 6
  have i : (0.9999 : ℝ)⁻¹ ≤ t⁻¹ := by gcongr
  have e : (15.6875 : ℝ) / t = 15.6875 * t⁻¹ := by ring
  simp only [fLK, e]
  generalize t⁻¹ = x at *
  generalize t ^ 6 = v at *
  norm_num at *
  linarith

theorem wilson_eq {T Tc Pc w : ℝ} (hT : 0 < T) : plWilson T Tc Pc w = some (Pc * exp (5.373 * (1 + w) * (1 - Tc / T))) := by
  show (odiv _ _).bind _ = _
  rw [odiv_pos hT]; rfl

theorem rpow_div_mono {p t t' : ℝ} (hp : 0 < p) (h0 : 0 ≤ t) (h : t < t') (h1 : t' < 1) : t ^ p / (1 - t) < t' ^ p / (1 - t') := by
  have a : t ^ p < t' ^ p := rpow_lt_rpow h0 h hp
  have b : 0 ≤ t ^ p := rpow_nonneg h0 p
  rw [div_lt_div_iff₀ (by linarith) (by linarith)]
  nlinarith

theorem watson_eq {h1 T1 T2 Tc : ℝ} (hc : 0 < Tc) (hT1 : T1 < Tc) (hT2 : T2 ≤ Tc) :
    dhvlWatson h1 T1 T2 Tc = some (h1 * ((1 - T2 / Tc) / (1 - T1 / Tc)) ^ (0.38 : ℝ)) := by
  have a : 0 < 1 - T1 / Tc := sub_pos.2 ((div_lt_one hc).2 hT1)
  have b : 0 ≤ 1 - T2 / Tc := sub_nonneg.2 ((div_le_one hc).2 hT2)
  unfold dhvlWatson
  simp only [odiv_pos hc, Option.bind_eq_bind, Option.bind_some, odiv_pos a, fpow_nonneg (div_nonneg b a.le)]
  rfl

end Verif.Vaporization
