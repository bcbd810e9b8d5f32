import Verif.Lemmas.Diffusion
import Mathlib.MeasureTheory.Integral.IntervalIntegral.FundThmCalculus
import Mathlib.Analysis.SpecialFunctions.Integrals.Basic

/-! # Helper lemmas: uptake with a surface resistance -/

namespace Verif.Diffusion

open Real Finset Filter intervalIntegral

theorem bessel_ineq {n : ℕ} (f : ℝ → ℝ) (φ : Fin n → ℝ → ℝ) (hf : Continuous f) (hφ : ∀ i, Continuous (φ i))
    (horth : ∀ i j, i ≠ j → ∫ x in (0 : ℝ)..1, φ i x * φ j x = 0) (hpos : ∀ i, 0 < ∫ x in (0 : ℝ)..1, φ i x * φ i x) :
    ∑ i, (∫ x in (0 : ℝ)..1, f x * φ i x) ^ 2 / (∫ x in (0 : ℝ)..1, φ i x * φ i x) ≤ ∫ x in (0 : ℝ)..1, f x * f x := by
  set a : Fin n → ℝ := fun i => ∫ x in (0 : ℝ)..1, f x * φ i x with ha
  set N : Fin n → ℝ := fun i => ∫ x in (0 : ℝ)..1, φ i x * φ i x with hN
  have hnn : 0 ≤ ∫ x in (0 : ℝ)..1, (f x - ∑ i, a i / N i * φ i x) * (f x - ∑ i, a i / N i * φ i x) :=
    intervalIntegral.integral_nonneg zero_le_one fun x _ => mul_self_nonneg _
  have hexp : ∀ x, (f x - ∑ i, a i / N i * φ i x) * (f x - ∑ i, a i / N i * φ i x) =
      f x * f x - 2 * ∑ i, a i / N i * (f x * φ i x) + ∑ i, ∑ j, a i / N i * (a j / N j) * (φ i x * φ j x) := by
    intro x
    have h1 : (∑ i, a i / N i * φ i x) * (∑ j, a j / N j * φ j x) = ∑ i, ∑ j, a i / N i * (a j / N j) * (φ i x * φ j x) := by
      rw [Finset.sum_mul_sum]
      exact Finset.sum_congr rfl fun i _ => Finset.sum_congr rfl fun j _ => by ring
    have h2 : f x * ∑ i, a i / N i * φ i x = ∑ i, a i / N i * (f x * φ i x) := by
      rw [Finset.mul_sum]
      exact Finset.sum_congr rfl fun i _ => by ring
    rw [← h1, ← h2]
    ring
  simp only [hexp] at hnn
  have c1 : Continuous fun x => f x * f x := hf.mul hf
  have c2 : ∀ i, Continuous fun x => a i / N i * (f x * φ i x) := fun i => (hf.mul (hφ i)).const_mul _
  have c3 : ∀ i j, Continuous fun x => a i / N i * (a j / N j) * (φ i x * φ j x) := fun i j => ((hφ i).mul (hφ j)).const_mul _
  have c2s : Continuous fun x => 2 * ∑ i, a i / N i * (f x * φ i x) := (continuous_finsetSum _ fun i _ => c2 i).const_mul 2
  have c3s : ∀ i, Continuous fun x => ∑ j, a i / N i * (a j / N j) * (φ i x * φ j x) := fun i => continuous_finsetSum _ fun j _ => c3 i j
  have c3ss : Continuous fun x => ∑ i, ∑ j, a i / N i * (a j / N j) * (φ i x * φ j x) := continuous_finsetSum _ fun i _ => c3s i
  have c12 : Continuous fun x => f x * f x - 2 * ∑ i, a i / N i * (f x * φ i x) := c1.sub c2s
  rw [intervalIntegral.integral_add (c12.intervalIntegrable _ _) (c3ss.intervalIntegrable _ _),
    intervalIntegral.integral_sub (c1.intervalIntegrable _ _) (c2s.intervalIntegrable _ _), intervalIntegral.integral_const_mul,
    intervalIntegral.integral_finsetSum (fun i _ => (c2 i).intervalIntegrable _ _),
    intervalIntegral.integral_finsetSum (fun i _ => (c3s i).intervalIntegrable _ _)] at hnn
  have e3 : ∀ i, ∫ x in (0 : ℝ)..1, ∑ j, a i / N i * (a j / N j) * (φ i x * φ j x) = a i ^ 2 / N i := by
    intro i
    rw [intervalIntegral.integral_finsetSum (fun j _ => (c3 i j).intervalIntegrable _ _)]
    simp only [intervalIntegral.integral_const_mul]
    rw [Finset.sum_eq_single i]
    · have : (∫ x in (0 : ℝ)..1, φ i x * φ i x) = N i := rfl
      rw [this]
      have := (hpos i).ne'
      have hN0 : N i ≠ 0 := this
      field_simp
    · intro j _ hj
      rw [horth i j hj.symm, mul_zero]
    · simp
  have e2 : ∀ i, ∫ x in (0 : ℝ)..1, a i / N i * (f x * φ i x) = a i ^ 2 / N i := by
    intro i
    rw [intervalIntegral.integral_const_mul]
    have : (∫ x in (0 : ℝ)..1, f x * φ i x) = a i := rfl
    rw [this]
    ring
  simp only [e3, e2] at hnn
  linarith

theorem cont_cos (b : ℝ) : Continuous fun x => cos (b * x) := continuous_cos.comp (continuous_const.mul continuous_id)
theorem cont_sin (b : ℝ) : Continuous fun x => sin (b * x) := continuous_sin.comp (continuous_const.mul continuous_id)

theorem lin_deriv (l x : ℝ) : HasDerivAt (fun y => l * y) l x := by simpa using (hasDerivAt_id x).const_mul l

theorem int_cos_one {b : ℝ} (hb : b ≠ 0) : ∫ x in (0 : ℝ)..1, 1 * cos (b * x) = sin b / b := by
  have h : ∀ x : ℝ, HasDerivAt (fun x => sin (b * x) / b) (1 * cos (b * x)) x := fun x => by
    refine (((hasDerivAt_sin _).comp x (lin_deriv b x)).div_const b).congr_deriv ?_
    field_simp
  rw [integral_eq_sub_of_hasDerivAt (fun x _ => h x) (((cont_cos b).const_mul 1).intervalIntegrable _ _)]
  simp

theorem int_cos_sq {b : ℝ} (hb : b ≠ 0) : ∫ x in (0 : ℝ)..1, cos (b * x) * cos (b * x) = 1 / 2 * (1 + sin b * cos b / b) := by
  have h : ∀ x : ℝ, HasDerivAt (fun x => 1 / 2 * (x + sin (b * x) * cos (b * x) / b)) (cos (b * x) * cos (b * x)) x := fun x => by
    refine (((hasDerivAt_id x).add ((((hasDerivAt_sin _).comp x (lin_deriv b x)).mul ((hasDerivAt_cos _).comp x (lin_deriv b x))).div_const b)).const_mul (1 / 2)).congr_deriv ?_
    simp only [Function.comp]
    field_simp
    nlinarith [sin_sq_add_cos_sq (b * x)]
  rw [integral_eq_sub_of_hasDerivAt (fun x _ => h x) (((cont_cos b).mul (cont_cos b)).intervalIntegrable _ _)]
  simp

theorem int_cos_cos {a b : ℝ} (hab : a ^ 2 ≠ b ^ 2) : ∫ x in (0 : ℝ)..1, cos (a * x) * cos (b * x) = (a * sin a * cos b - b * sin b * cos a) / (a ^ 2 - b ^ 2) := by
  have h0 : a ^ 2 - b ^ 2 ≠ 0 := sub_ne_zero.2 hab
  have h : ∀ x : ℝ, HasDerivAt (fun x => (a * (sin (a * x) * cos (b * x)) - b * (sin (b * x) * cos (a * x))) / (a ^ 2 - b ^ 2)) (cos (a * x) * cos (b * x)) x := fun x => by
    refine (((((((hasDerivAt_sin _).comp x (lin_deriv a x)).mul ((hasDerivAt_cos _).comp x (lin_deriv b x)))).const_mul a).sub
      (((((hasDerivAt_sin _).comp x (lin_deriv b x)).mul ((hasDerivAt_cos _).comp x (lin_deriv a x)))).const_mul b)).div_const (a ^ 2 - b ^ 2)).congr_deriv ?_
    simp only [Function.comp]
    rw [div_eq_iff h0]
    ring
  rw [integral_eq_sub_of_hasDerivAt (fun x _ => h x) (((cont_cos a).mul (cont_cos b)).intervalIntegrable _ _)]
  simp
  ring

/-- With exact roots of `x tan x = Bi`, the coefficients of the sheet series sum to at most 1. -/
theorem sheet_coeff {n : ℕ} {Bi : ℝ} (x : Fin n → ℝ) (hB : 0 < Bi) (hx : ∀ i, 0 < x i) (hinj : Function.Injective x)
    (hroot : ∀ i, x i * sin (x i) = Bi * cos (x i)) :
    ∑ i, 2 * Bi ^ 2 / (x i ^ 2 * (x i ^ 2 + Bi * (Bi + 1))) ≤ 1 := by
  have hsc : ∀ i, sin (x i) ^ 2 = Bi ^ 2 / (x i ^ 2 + Bi ^ 2) ∧ sin (x i) * cos (x i) = x i * Bi / (x i ^ 2 + Bi ^ 2) := by
    intro i
    have h1 := hroot i
    have h2 := sin_sq_add_cos_sq (x i)
    have h0 : 0 < x i ^ 2 + Bi ^ 2 := by have := hx i; positivity
    have h3 : sin (x i) ^ 2 = Bi ^ 2 / (x i ^ 2 + Bi ^ 2) := by
      rw [eq_div_iff h0.ne']
      linear_combination (x i * sin (x i) + Bi * cos (x i)) * h1 + Bi ^ 2 * h2
    refine ⟨h3, ?_⟩
    have h4 : Bi * (sin (x i) * cos (x i)) = x i * sin (x i) ^ 2 := by linear_combination -sin (x i) * h1
    rw [h3] at h4
    have : sin (x i) * cos (x i) = x i * (Bi ^ 2 / (x i ^ 2 + Bi ^ 2)) / Bi := by rw [eq_div_iff hB.ne']; linear_combination h4
    rw [this]
    field_simp
  have hN : ∀ i, ∫ y in (0 : ℝ)..1, cos (x i * y) * cos (x i * y) = (x i ^ 2 + Bi * (Bi + 1)) / (2 * (x i ^ 2 + Bi ^ 2)) := by
    intro i
    have := hx i
    rw [int_cos_sq this.ne', (hsc i).2]
    have h0 : 0 < x i ^ 2 + Bi ^ 2 := by positivity
    field_simp
    ring
  have key := bessel_ineq (fun _ => 1) (fun i y => cos (x i * y)) continuous_const (fun i => cont_cos (x i)) (fun i j hij => ?_) (fun i => ?_)
  · simp only [mul_one, intervalIntegral.integral_const, sub_zero, one_smul] at key
    refine le_trans (le_of_eq (Finset.sum_congr rfl fun i _ => ?_)) key
    have := hx i
    rw [int_cos_one this.ne', hN i, div_pow, (hsc i).1]
    have h0 : 0 < x i ^ 2 + Bi ^ 2 := by positivity
    have h1 : 0 < x i ^ 2 + Bi * (Bi + 1) := by positivity
    field_simp
  · have hne : x i ^ 2 ≠ x j ^ 2 := fun h => hij (hinj ((pow_left_inj₀ (hx i).le (hx j).le two_ne_zero).1 h))
    rw [int_cos_cos hne, hroot i, hroot j]
    ring
  · rw [hN i]
    have := hx i
    positivity

theorem int_r_sin_one {b : ℝ} (hb : b ≠ 0) : ∫ x in (0 : ℝ)..1, x * sin (b * x) = sin b / b ^ 2 - cos b / b := by
  have h : ∀ x : ℝ, HasDerivAt (fun x => sin (b * x) / b ^ 2 - x * cos (b * x) / b) (x * sin (b * x)) x := fun x => by
    refine ((((hasDerivAt_sin _).comp x (lin_deriv b x)).div_const (b ^ 2)).sub (((hasDerivAt_id x).mul ((hasDerivAt_cos _).comp x (lin_deriv b x))).div_const b)).congr_deriv ?_
    simp only [Function.comp, id]
    field_simp
    ring
  rw [integral_eq_sub_of_hasDerivAt (fun x _ => h x) ((continuous_id.mul (cont_sin b)).intervalIntegrable _ _)]
  simp

theorem int_sin_sq {b : ℝ} (hb : b ≠ 0) : ∫ x in (0 : ℝ)..1, sin (b * x) * sin (b * x) = 1 / 2 * (1 - sin b * cos b / b) := by
  have h : ∀ x : ℝ, HasDerivAt (fun x => 1 / 2 * (x - sin (b * x) * cos (b * x) / b)) (sin (b * x) * sin (b * x)) x := fun x => by
    refine (((hasDerivAt_id x).sub ((((hasDerivAt_sin _).comp x (lin_deriv b x)).mul ((hasDerivAt_cos _).comp x (lin_deriv b x))).div_const b)).const_mul (1 / 2)).congr_deriv ?_
    simp only [Function.comp]
    field_simp
    nlinarith [sin_sq_add_cos_sq (b * x)]
  rw [integral_eq_sub_of_hasDerivAt (fun x _ => h x) (((cont_sin b).mul (cont_sin b)).intervalIntegrable _ _)]
  simp

theorem int_sin_sin {a b : ℝ} (hab : a ^ 2 ≠ b ^ 2) : ∫ x in (0 : ℝ)..1, sin (a * x) * sin (b * x) = (b * cos b * sin a - a * cos a * sin b) / (a ^ 2 - b ^ 2) := by
  have h0 : a ^ 2 - b ^ 2 ≠ 0 := sub_ne_zero.2 hab
  have h : ∀ x : ℝ, HasDerivAt (fun x => (b * (sin (a * x) * cos (b * x)) - a * (sin (b * x) * cos (a * x))) / (a ^ 2 - b ^ 2)) (sin (a * x) * sin (b * x)) x := fun x => by
    refine (((((((hasDerivAt_sin _).comp x (lin_deriv a x)).mul ((hasDerivAt_cos _).comp x (lin_deriv b x)))).const_mul b).sub
      (((((hasDerivAt_sin _).comp x (lin_deriv b x)).mul ((hasDerivAt_cos _).comp x (lin_deriv a x)))).const_mul a)).div_const (a ^ 2 - b ^ 2)).congr_deriv ?_
    simp only [Function.comp]
    rw [div_eq_iff h0]
    ring
  rw [integral_eq_sub_of_hasDerivAt (fun x _ => h x) (((cont_sin a).mul (cont_sin b)).intervalIntegrable _ _)]
  simp
  ring

/-- With exact roots of `x cot x = 1 - Bi`, the coefficients of the sphere series are positive and sum to at most 1. -/
theorem sphere_coeff {n : ℕ} {Bi : ℝ} (x : Fin n → ℝ) (hB : 0 < Bi) (hx : ∀ i, 0 < x i) (hinj : Function.Injective x)
    (hroot : ∀ i, x i * cos (x i) = (1 - Bi) * sin (x i)) :
    (∀ i, 0 < x i ^ 2 + Bi * (Bi - 1)) ∧ ∑ i, 6 * Bi ^ 2 / (x i ^ 2 * (x i ^ 2 + Bi * (Bi - 1))) ≤ 1 := by
  have h0 : ∀ i, 0 < x i ^ 2 + (1 - Bi) ^ 2 := fun i => by have := hx i; positivity
  have hs2 : ∀ i, sin (x i) ^ 2 = x i ^ 2 / (x i ^ 2 + (1 - Bi) ^ 2) := by
    intro i
    rw [eq_div_iff (h0 i).ne']
    linear_combination -(x i * cos (x i) + (1 - Bi) * sin (x i)) * hroot i + x i ^ 2 * sin_sq_add_cos_sq (x i)
  have hs0 : ∀ i, sin (x i) ≠ 0 := by
    intro i h
    have h1 := hs2 i
    have h2 := h0 i
    have h3 := hx i
    rw [h, eq_div_iff h2.ne'] at h1
    have : 0 < x i ^ 2 := by positivity
    linarith
  have hN : ∀ i, ∫ y in (0 : ℝ)..1, sin (x i * y) * sin (x i * y) = (x i ^ 2 + Bi * (Bi - 1)) / (2 * (x i ^ 2 + (1 - Bi) ^ 2)) := by
    intro i
    have h3 := hx i
    have h4 : sin (x i) * cos (x i) / x i = (1 - Bi) / (x i ^ 2 + (1 - Bi) ^ 2) := by
      have : sin (x i) * cos (x i) / x i = (1 - Bi) * sin (x i) ^ 2 / x i ^ 2 := by
        rw [div_eq_div_iff h3.ne' (by positivity)]
        linear_combination x i * sin (x i) * hroot i
      have h2 := h0 i
      rw [this, hs2 i]
      field_simp
    rw [int_sin_sq h3.ne', h4]
    have h2 := h0 i
    field_simp
    ring
  have hpos : ∀ i, 0 < ∫ y in (0 : ℝ)..1, sin (x i * y) * sin (x i * y) := by
    intro i
    have h3 := hx i
    have h4 := sin_lt (show 0 < 2 * x i by linarith)
    rw [sin_two_mul] at h4
    rw [int_sin_sq h3.ne']
    have : sin (x i) * cos (x i) / x i < 1 := by rw [div_lt_one h3]; linarith
    linarith
  have hD : ∀ i, 0 < x i ^ 2 + Bi * (Bi - 1) := by
    intro i
    have h1 := hpos i
    rw [hN i] at h1
    exact (div_pos_iff_of_pos_right (by have := h0 i; positivity)).1 h1
  refine ⟨hD, ?_⟩
  have key := bessel_ineq (fun y => y) (fun i y => sin (x i * y)) continuous_id (fun i => cont_sin (x i)) (fun i j hij => ?_) hpos
  · have e : ∫ y in (0 : ℝ)..1, y * y = 1 / 3 := by
      have : ∀ y : ℝ, y * y = y ^ 2 := fun y => by ring
      simp only [this]
      rw [integral_pow]
      norm_num
    rw [e] at key
    have : ∑ i, 6 * Bi ^ 2 / (x i ^ 2 * (x i ^ 2 + Bi * (Bi - 1))) = 3 * ∑ i, (∫ y in (0 : ℝ)..1, y * sin (x i * y)) ^ 2 / (∫ y in (0 : ℝ)..1, sin (x i * y) * sin (x i * y)) := by
      rw [Finset.mul_sum]
      refine Finset.sum_congr rfl fun i _ => ?_
      have h3 := hx i
      have h5 : sin (x i) / x i ^ 2 - cos (x i) / x i = Bi * sin (x i) / x i ^ 2 := by
        field_simp
        linear_combination -hroot i
      have h2 := h0 i
      have h6 := hD i
      rw [int_r_sin_one h3.ne', h5, hN i, div_pow, mul_pow, hs2 i]
      field_simp
      norm_num
    rw [this]
    linarith
  · have hne : x i ^ 2 ≠ x j ^ 2 := fun h => hij (hinj ((pow_left_inj₀ (hx i).le (hx j).le two_ne_zero).1 h))
    rw [int_sin_sin hne, hroot i, hroot j]
    ring

/-- A series `1 - Σ cᵢ exp(-xᵢ² Fo)` with nonnegative coefficients summing to at most 1. -/
theorem series_range {n : ℕ} (c x : Fin n → ℝ) (hc : ∀ i, 0 ≤ c i) (hsum : ∑ i, c i ≤ 1) {Fo Fo' : ℝ} (hF : 0 ≤ Fo) (hFF : Fo ≤ Fo') :
    0 ≤ 1 - ∑ i, c i * exp (-x i ^ 2 * Fo) ∧ 1 - ∑ i, c i * exp (-x i ^ 2 * Fo') ≤ 1 ∧
    1 - ∑ i, c i * exp (-x i ^ 2 * Fo) ≤ 1 - ∑ i, c i * exp (-x i ^ 2 * Fo') := by
  refine ⟨?_, ?_, ?_⟩
  · have : ∑ i, c i * exp (-x i ^ 2 * Fo) ≤ ∑ i, c i := Finset.sum_le_sum fun i _ =>
      mul_le_of_le_one_right (hc i) (exp_le_one_iff.2 (by nlinarith [sq_nonneg (x i)]))
    linarith
  · have : 0 ≤ ∑ i, c i * exp (-x i ^ 2 * Fo') := Finset.sum_nonneg fun i _ => mul_nonneg (hc i) (exp_pos _).le
    linarith
  · have : ∑ i, c i * exp (-x i ^ 2 * Fo') ≤ ∑ i, c i * exp (-x i ^ 2 * Fo) := Finset.sum_le_sum fun i _ =>
      mul_le_mul_of_nonneg_left (exp_le_exp.2 (by nlinarith [sq_nonneg (x i), mul_nonneg (sq_nonneg (x i)) (sub_nonneg.2 hFF)])) (hc i)
    linarith

theorem series_tendsto {n : ℕ} (c x : Fin n → ℝ) (hx : ∀ i, 0 < x i) :
    Tendsto (fun Fo => 1 - ∑ i, c i * exp (-x i ^ 2 * Fo)) atTop (nhds 1) := by
  have h : ∀ i, Tendsto (fun Fo => c i * exp (-x i ^ 2 * Fo)) atTop (nhds 0) := fun i => by
    have h1 : Tendsto (fun Fo => exp (-x i ^ 2 * Fo)) atTop (nhds 0) := tendsto_exp_atBot.comp
      (tendsto_id.const_mul_atTop_of_neg (by have := hx i; have : 0 < x i ^ 2 := by positivity
                                             linarith))
    simpa using h1.const_mul (c i)
  have := (tendsto_finsetSum Finset.univ fun i _ => h i).const_sub 1
  simpa using this

theorem uptakeConvSheet_eq {x : Fin 4 → ℝ} {Fo Bi : ℝ} (hF : Fo ≠ 0) (hB : Bi ≠ 0) : uptakeConvSheet x Fo Bi =
    1 - ∑ i, 2 * Bi ^ 2 / (x i ^ 2 * (x i ^ 2 + Bi * (Bi + 1))) * exp (-x i ^ 2 * Fo) := by
  unfold uptakeConvSheet
  rw [if_pos ⟨hF, hB⟩, Finset.mul_sum]
  exact congrArg (1 - ·) (Finset.sum_congr rfl fun i _ => by ring)

theorem uptakeConvSphere_eq {x : Fin 4 → ℝ} {Fo Bi : ℝ} (hF : Fo ≠ 0) (hB : Bi ≠ 0) : uptakeConvSphere x Fo Bi =
    1 - ∑ i, 6 * Bi ^ 2 / (x i ^ 2 * (x i ^ 2 + Bi * (Bi - 1))) * exp (-x i ^ 2 * Fo) := by
  unfold uptakeConvSphere
  rw [if_pos ⟨hF, hB⟩, Finset.mul_sum]
  exact congrArg (1 - ·) (Finset.sum_congr rfl fun i _ => by ring)

/-- For every positive `a` there is a root of `x tan x = a` in each interval `(nπ, nπ + π/2)`. -/
theorem exists_root_tan {a : ℝ} (ha : 0 < a) (n : ℕ) : ∃ y, n * π < y ∧ y < n * π + π / 2 ∧ y * sin y = a * cos y := by
  have hpi := pi_pos
  obtain ⟨y, hy, h0⟩ : ∃ y ∈ Set.Icc (n * π) (n * π + π / 2), (y * sin y - a * cos y) * (-1) ^ n = 0 := by
    have hcont : ContinuousOn (fun y : ℝ => (y * sin y - a * cos y) * (-1) ^ n) (Set.Icc (n * π) (n * π + π / 2)) := by fun_prop
    have := intermediate_value_Icc (by linarith) hcont
    refine this ⟨?_, ?_⟩
    · have h1 : ((-1 : ℝ) ^ n) * (-1) ^ n = 1 := by rw [← mul_pow]; norm_num
      rw [sin_nat_mul_pi, cos_nat_mul_pi]
      nlinarith
    · have h1 : ((-1 : ℝ) ^ n) * (-1) ^ n = 1 := by rw [← mul_pow]; norm_num
      rw [add_comm (n * π), sin_add_nat_mul_pi, cos_add_nat_mul_pi, sin_pi_div_two, cos_pi_div_two]
      have : 0 ≤ π / 2 + n * π := by positivity
      nlinarith
  have hn : ((-1 : ℝ)) ^ n ≠ 0 := by positivity
  have h1 : y * sin y = a * cos y := by
    rcases mul_eq_zero.1 h0 with h | h
    · linarith
    · exact absurd h hn
  refine ⟨y, lt_of_le_of_ne hy.1 ?_, lt_of_le_of_ne hy.2 ?_, h1⟩
  · rintro rfl
    rw [sin_nat_mul_pi, cos_nat_mul_pi, mul_zero] at h1
    exact mul_ne_zero ha.ne' hn h1.symm
  · rintro rfl
    rw [add_comm (n * π), sin_add_nat_mul_pi, cos_add_nat_mul_pi, sin_pi_div_two, cos_pi_div_two, mul_zero, mul_zero, mul_one] at h1
    have : 0 < π / 2 + n * π := by positivity
    exact mul_ne_zero this.ne' hn h1

end Verif.Diffusion
