import Verif.Model.Transport
import Verif.Spec.Published

/-!
# Conversions between SI units and the units of the publications
-/

namespace Verif

open Real Published Verif.Transport

theorem omegaD_neufeld {t : ℝ} (ht : 0 ≤ t) : omegaD t = neufeld t := by
  unfold omegaD neufeld
  rw [rpow_neg ht, exp_neg, exp_neg, exp_neg]
  ring

theorem wilkeLee_conv (T P MA MB : ℝ) (hT : 0 ≤ T) (hA : 0 < MA) (hB : 0 < MB) {sA sB eA eB : ℝ} :
    cm2s (1e-2 * (3.03 - 0.98 / √(1e3 * 2 / (1 / MA + 1 / MB))) * T ^ (1.5 : ℝ) /
      (P * √(1e3 * 2 / (1 / MA + 1 / MB)) * ((sA + sB) / 2) ^ 2 * omegaD (T / √(eA * eB)))) =
      wilkeLee T (bar P) (gmol MA) (gmol MB) ⟨sA, eA⟩ ⟨sB, eB⟩ := by
  have ho : omegaD (T / √(eA * eB)) = neufeld (T / √(eA * eB)) := omegaD_neufeld (div_nonneg hT (sqrt_nonneg _))
  have hM : 1e3 * 2 / (1 / MA + 1 / MB) = 2 / (1 / gmol MA + 1 / gmol MB) := by
    unfold gmol
    have := hA.ne'; have := hB.ne'
    field_simp
    norm_num
  unfold wilkeLee
  rw [ho, hM]
  simp only [← sqrt_eq_rpow]
  rw [show (1.5 : ℝ) = 3 / 2 by norm_num]
  unfold cm2s bar
  generalize √(2 / (1 / gmol MA + 1 / gmol MB)) = m
  generalize neufeld (T / √(eA * eB)) = o
  generalize T ^ (3 / 2 : ℝ) = t
  rw [show P / 10 ^ 5 * m * ((sA + sB) / 2) ^ 2 * o = (P * m * ((sA + sB) / 2) ^ 2 * o) / 10 ^ 5 by ring, div_div_eq_mul_div]
  ring

/-- The inverse viscosity of Jossi in SI units. -/
theorem xiJossi_si (M Tc Pc : ℝ) (hM : 0 < M) (hT : 0 < Tc) (hP : 0 < Pc) :
    xiJossi Tc (atm Pc) (gmol M) = (101325 ^ 4 / 1000 ^ 3 : ℝ) ^ (1 / 6 : ℝ) * (Tc / (M ^ 3 * Pc ^ 4)) ^ (1 / 6 : ℝ) := by
  unfold xiJossi atm gmol
  have hm : 0 < 1000 * M := by positivity
  have hp : 0 < Pc / 101325 := by positivity
  rw [← mul_rpow (by positivity) (by positivity), show (101325 ^ 4 / 1000 ^ 3 : ℝ) * (Tc / (M ^ 3 * Pc ^ 4)) = Tc * ((1000 * M) ^ 3)⁻¹ * ((Pc / 101325) ^ 4)⁻¹ by
    field_simp]
  generalize 1000 * M = m at *
  generalize Pc / 101325 = p at *
  rw [mul_rpow (by positivity) (by positivity), mul_rpow (by positivity) (by positivity), inv_rpow (by positivity), inv_rpow (by positivity),
    ← rpow_natCast, ← rpow_natCast, ← rpow_mul (by positivity), ← rpow_mul (by positivity), rpow_neg (by positivity), rpow_neg (by positivity)]
  norm_num

theorem xiJossi_si' (M Tc Pc : ℝ) (hM : 0 < M) (_hT : 0 < Tc) (hP : 0 < Pc) :
    xiJossi Tc (atm Pc) (gmol M) = (101325 : ℝ) ^ (2 / 3 : ℝ) / √1000 * (Tc ^ (1 / 6 : ℝ) / (√M * Pc ^ (2 / 3 : ℝ))) := by
  unfold xiJossi atm gmol
  rw [rpow_neg (by positivity), rpow_neg (by positivity), div_rpow hP.le (by norm_num), mul_rpow (by norm_num) hM.le, ← sqrt_eq_rpow, ← sqrt_eq_rpow]
  have : (101325 : ℝ) ^ (2 / 3 : ℝ) ≠ 0 := by positivity
  have : Pc ^ (2 / 3 : ℝ) ≠ 0 := by positivity
  have : √M ≠ 0 := by positivity
  have : √(1000 : ℝ) ≠ 0 := by positivity
  field_simp

theorem jossi_const :
    6.872969367e8 * (1 - 1e-9) < 10 ^ 7 * (101325 ^ 4 / 1000 ^ 3 : ℝ) ^ (1 / 6 : ℝ) ∧
      10 ^ 7 * (101325 ^ 4 / 1000 ^ 3 : ℝ) ^ (1 / 6 : ℝ) < 6.872969367e8 * (1 + 1e-9) := by
  have e : ((101325 ^ 4 / 1000 ^ 3 : ℝ) ^ (1 / 6 : ℝ)) ^ 6 = 101325 ^ 4 / 1000 ^ 3 := by
    rw [← rpow_natCast, ← rpow_mul (by norm_num)]; norm_num
  constructor
  · refine lt_of_pow_lt_pow_left₀ 6 (by positivity) ?_
    rw [mul_pow _ _ 6, mul_pow _ _ 6, e]; norm_num
  · refine lt_of_pow_lt_pow_left₀ 6 (by norm_num) ?_
    rw [mul_pow _ _ 6, mul_pow _ _ 6, e]; norm_num

theorem dean_const :
    6.87e4 * (1 - 1e-3) < 1000 * ((101325 : ℝ) ^ (2 / 3 : ℝ) / √1000) ∧ 1000 * ((101325 : ℝ) ^ (2 / 3 : ℝ) / √1000) < 6.87e4 * (1 + 1e-3) := by
  have e : ((101325 : ℝ) ^ (2 / 3 : ℝ) / √1000) ^ 6 = 101325 ^ 4 / 1000 ^ 3 := by
    rw [div_pow, ← rpow_natCast, ← rpow_mul (by norm_num), show √(1000 : ℝ) ^ 6 = (√(1000 : ℝ) ^ 2) ^ 3 by ring, sq_sqrt (by norm_num)]
    norm_num
  constructor
  · refine lt_of_pow_lt_pow_left₀ 6 (by positivity) ?_
    rw [mul_pow _ _ 6, mul_pow _ _ 6, e]; norm_num
  · refine lt_of_pow_lt_pow_left₀ 6 (by norm_num) ?_
    rw [mul_pow _ _ 6, mul_pow _ _ 6, e]; norm_num

theorem lucas_conv (Tr Pr M Tc Pc F0 : ℝ) (hT : 0 ≤ Tr) : microP (lucasMu Tr Pr M Tc Pc F0) = lucas Tr Pr (xiLucas Tc (bar Pc) (gmol M)) F0 := by
  have hH : lucasHigh Tr Pr = supLucas Tr Pr := by
    unfold lucasHigh supLucas
    dsimp only
    rw [rpow_neg hT, rpow_neg hT, rpow_neg hT, ← div_eq_mul_inv, ← div_eq_mul_inv, ← div_eq_mul_inv, div_eq_mul_inv (1.245e-3 : ℝ),
      div_eq_mul_inv (0.4489 : ℝ), div_eq_mul_inv (1.7368 : ℝ), one_div (1 + _), neg_mul, show (1.245e-3 : ℝ) = 0.001245 by norm_num]
  have hL : lucasZ Tr * F0 = lowLucas Tr F0 := rfl
  have hS : 0.600 + 0.760 * Pr ^ (3.262 + 14.98 * Pr ^ (5.508 : ℝ)) + (6.990 * Pr ^ (1.390 + 5.746 * Pr) - 0.6) * (1 - Tr) = subLucas Tr Pr := rfl
  have hx : 0.176e7 * (Tc / ((M * 1e3) ^ 3 * (Pc / 1e5) ^ 4)) ^ (1 / 6 : ℝ) = 10 ^ 7 * xiLucas Tc (bar Pc) (gmol M) := by
    unfold xiLucas bar gmol
    rw [show M * 1e3 = 1000 * M by ring, show Pc / 1e5 = Pc / 10 ^ 5 by norm_num]
    ring
  unfold lucasMu lucas microP
  dsimp only
  rw [hL, hS, hH, hx]
  generalize xiLucas Tc (bar Pc) (gmol M) = x
  generalize (if Tr ≤ 1 ∧ Pr < 1 then subLucas Tr Pr else lowLucas Tr F0 * supLucas Tr Pr) = Z2
  rw [inv_pow, ← div_eq_mul_inv]
  field_simp

theorem gamma_const (R NA : ℝ) (hR : 8.314 < R ∧ R < 8.315) (hN : 6.022e23 < NA ∧ NA < 6.023e23) :
    210 < (NA ^ 2 / (R ^ 5 * (10 ^ 20 * 10 ^ 9))) ^ (1 / 6 : ℝ) ∧ (NA ^ 2 / (R ^ 5 * (10 ^ 20 * 10 ^ 9))) ^ (1 / 6 : ℝ) < 214 := by
  have hR0 : 0 < R := by linarith [hR.1]
  have hN0 : 0 < NA := by linarith [hN.1]
  have e : ((NA ^ 2 / (R ^ 5 * (10 ^ 20 * 10 ^ 9))) ^ (1 / 6 : ℝ)) ^ 6 = NA ^ 2 / (R ^ 5 * (10 ^ 20 * 10 ^ 9)) := by
    rw [← rpow_natCast, ← rpow_mul (by positivity)]; norm_num
  have r1 : R ^ 5 < 8.315 ^ 5 := pow_lt_pow_left₀ hR.2 hR0.le (by norm_num)
  have r2 : 8.314 ^ 5 < R ^ 5 := pow_lt_pow_left₀ hR.1 (by norm_num) (by norm_num)
  have n1 : NA ^ 2 < 6.023e23 ^ 2 := pow_lt_pow_left₀ hN.2 hN0.le (by norm_num)
  have n2 : 6.022e23 ^ 2 < NA ^ 2 := pow_lt_pow_left₀ hN.1 (by norm_num) (by norm_num)
  constructor
  · refine lt_of_pow_lt_pow_left₀ 6 (by positivity) ?_
    rw [e, lt_div_iff₀ (by positivity)]
    refine lt_of_le_of_lt (mul_le_mul_of_nonneg_left (mul_le_mul_of_nonneg_right r1.le (by norm_num)) (by norm_num)) (lt_trans ?_ n2)
    norm_num
  · refine lt_of_pow_lt_pow_left₀ 6 (by norm_num) ?_
    rw [e, div_lt_iff₀ (by positivity)]
    refine lt_of_lt_of_le (lt_trans n1 ?_) (mul_le_mul_of_nonneg_left (mul_le_mul_of_nonneg_right r2.le (by norm_num)) (by norm_num))
    norm_num

end Verif
