import Verif.Model.Transport
import Mathlib.Analysis.SpecialFunctions.Log.Deriv
import Mathlib.Analysis.Complex.ExponentialBounds

/-! # Helper lemmas: gas viscosities and thermal conductivities -/

namespace Verif.Transport

open Finset Real Verif.Vaporization

variable {N : ℕ}

theorem fp0_some {Tr Tc Pc Zc dm f : ℝ} (h : lucasFP0 Tr Tc Pc Zc dm = some f) : 1 ≤ f := by
  unfold lucasFP0 fpow at h
  dsimp only at h
  split_ifs at h with h1 h2 h3 h3
  · injection h with h; linarith
  · cases h
  · cases h
  · injection h with h
    rw [← h]
    have : 0 ≤ (0.292 - Zc) ^ (1.72 : ℝ) := rpow_nonneg (not_lt.1 h2) _
    have := mul_nonneg (mul_nonneg (show (0 : ℝ) ≤ 30.55 by norm_num) this) (abs_nonneg (0.96 + 0.1 * (Tr - 0.7)))
    linarith
  · injection h with h
    rw [← h]
    have : 0 ≤ (0.292 - Zc) ^ (1.72 : ℝ) := rpow_nonneg (not_lt.1 h2) _
    have := mul_nonneg (show (0 : ℝ) ≤ 30.55 by norm_num) this
    linarith

theorem lucasZ_pos {Tr : ℝ} (h : 0 < Tr) : 0 < lucasZ Tr := by
  unfold lucasZ
  rcases le_or_gt Tr 0.3 with h1 | h1
  · have a : 1.24 * Tr ≤ 0.807 * Tr ^ (0.618 : ℝ) := by
      have e : Tr = Tr ^ (0.618 : ℝ) * Tr ^ (0.382 : ℝ) := by rw [← rpow_add h]; norm_num
      have b : Tr ^ (0.382 : ℝ) ≤ 0.65 := by
        refine (rpow_le_rpow h.le h1 (by norm_num)).trans ?_
        have c : (0.3 : ℝ) ^ (0.382 : ℝ) ≤ 0.3 ^ (3 / 8 : ℝ) := rpow_le_rpow_of_exponent_ge (by norm_num) (by norm_num) (by norm_num)
        refine c.trans ?_
        refine le_of_pow_le_pow_left₀ (n := 8) (by norm_num) (by norm_num) ?_
        rw [← rpow_natCast ((0.3 : ℝ) ^ (3 / 8 : ℝ)), ← rpow_mul (by norm_num)]
        norm_num
      have p := rpow_pos_of_pos h (0.618 : ℝ)
      have := mul_le_mul_of_nonneg_left b p.le
      rw [← e] at this
      norm_num at *
      linarith
    have b : exp (-0.449 * Tr) ≤ 1 - 0.449 * Tr + 0.449 ^ 2 * Tr ^ 2 := by
      have hx : |(-0.449 * Tr)| ≤ 1 := by rw [abs_le]; norm_num at *; constructor <;> linarith
      have := abs_exp_sub_one_sub_id_le hx
      have := (abs_le.1 this).2
      norm_num at *
      nlinarith
    have c := add_one_le_exp (-4.058 * Tr)
    norm_num at *
    nlinarith
  · have a : 0.36 ≤ 0.807 * Tr ^ (0.618 : ℝ) := by
      have c : (0.3 : ℝ) ^ (0.618 : ℝ) ≤ Tr ^ (0.618 : ℝ) := rpow_le_rpow (by norm_num) h1.le (by norm_num)
      have d : (0.3 : ℝ) ^ (5 / 8 : ℝ) ≤ 0.3 ^ (0.618 : ℝ) := rpow_le_rpow_of_exponent_ge (by norm_num) (by norm_num) (by norm_num)
      have e : (0.47 : ℝ) ≤ 0.3 ^ (5 / 8 : ℝ) := by
        refine le_of_pow_le_pow_left₀ (n := 8) (by norm_num) (by positivity) ?_
        rw [← rpow_natCast ((0.3 : ℝ) ^ (5 / 8 : ℝ)), ← rpow_mul (by norm_num)]
        norm_num
      have g := (e.trans d).trans c
      generalize Tr ^ (0.618 : ℝ) = u at *
      norm_num at g ⊢
      linarith
    have b : exp (-0.449 * Tr) ≤ 1 := exp_le_one_iff.2 (by norm_num; linarith)
    have c := exp_pos (-4.058 * Tr)
    generalize exp (-0.449 * Tr) = x at *
    generalize exp (-4.058 * Tr) = z at *
    norm_num at *
    linarith

theorem lucasHigh_ge {Tr Pr : ℝ} (h : 1 < Tr) (hP : 0 ≤ Pr) : 1 ≤ lucasHigh Tr Pr := by
  have h0 : 0 < Tr := by linarith
  have hb : (0 : ℝ) ≤ 1.6553 * Tr - 1.2723 := by norm_num at *; linarith
  unfold lucasHigh
  dsimp only
  have : 0 ≤ 1.245e-3 / Tr * exp (5.1726 * Tr ^ (-0.3286 : ℝ)) := by positivity
  refine le_add_of_nonneg_right (div_nonneg (mul_nonneg this (rpow_nonneg hP _)) (add_nonneg (mul_nonneg (mul_nonneg this hb) (rpow_nonneg hP _)) ?_))
  have := rpow_nonneg hP (1.7368 / Tr * exp (2.2310 * Tr ^ (-7.6351 : ℝ)))
  positivity

theorem lucasHigh_zero (Tr : ℝ) (h : 0 < Tr) : lucasHigh Tr 0 = 1 := by
  unfold lucasHigh
  dsimp only
  rw [zero_rpow (by norm_num), zero_rpow (by positivity), zero_rpow (by positivity)]
  norm_num

theorem deanStiel_eq (R v : ℝ) (y M Tc Pc Zc : Fin N → ℝ) : muvmxpcDeanStiel R v y M Tc Pc Zc =
    10.8e-5 * (exp (1.439 * ((∑ i, y i * (Zc i * R * Tc i / Pc i)) / v)) - exp (-1.111 * ((∑ i, y i * (Zc i * R * Tc i / Pc i)) / v) ^ (1.858 : ℝ))) /
    (6.87e4 * (∑ i, y i * Tc i) ^ (1 / 6 : ℝ) / (√(∑ i, y i * M i) *
      (R * (∑ i, y i * Zc i) * (∑ i, y i * Tc i) / ∑ i, y i * (Zc i * R * Tc i / Pc i)) ^ (2 / 3 : ℝ))) := rfl

end Verif.Transport
