import Verif.Lemmas.Erfc
import Verif.Model.Diffusion
import Mathlib.Analysis.Convex.Deriv
import Mathlib.Analysis.Complex.ExponentialBounds
import Mathlib.Analysis.Real.Pi.Bounds

/-! # Helper lemmas: truncated series solutions of the diffusion equation -/

namespace Verif.Diffusion

open Real Finset


theorem sgn0 : sgn 0 = 1 := by norm_num [sgn]
theorem sgn1 : sgn 1 = -1 := by norm_num [sgn]
theorem sgn2 : sgn 2 = 1 := by norm_num [sgn]
theorem sgn3 : sgn 3 = -1 := by norm_num [sgn]

theorem sum04 (f : ℕ → ℝ) : ∑ n ∈ Ico (0 : ℕ) 4, f n = f 0 + f 1 + f 2 + f 3 := by
  rw [Nat.Ico_zero_eq_range]; simp [Finset.sum_range_succ]
theorem sum03 (f : ℕ → ℝ) : ∑ n ∈ Ico (0 : ℕ) 3, f n = f 0 + f 1 + f 2 := by
  rw [Nat.Ico_zero_eq_range]; simp [Finset.sum_range_succ]
theorem sum14 (f : ℕ → ℝ) : ∑ n ∈ Ico (1 : ℕ) 4, f n = f 1 + f 2 + f 3 := by
  rw [Finset.sum_Ico_eq_sum_range]; simp [Finset.sum_range_succ]

theorem sin_nat_mul_le (k : ℕ) (θ : ℝ) : |sin (k * θ)| ≤ k * |sin θ| := by
  induction k with
  | zero => simp
  | succ k ih =>
    rw [show ((k + 1 : ℕ) : ℝ) * θ = k * θ + θ by push_cast; ring, sin_add]
    refine (abs_add_le _ _).trans ?_
    rw [abs_mul, abs_mul]
    have h1 := mul_le_of_le_one_right (abs_nonneg (sin (k * θ))) (abs_cos_le_one θ)
    have h2 := mul_le_of_le_one_left (abs_nonneg (sin θ)) (abs_cos_le_one (k * θ))
    push_cast
    linarith

theorem pi_sq_lo : 9.85 < π ^ 2 := by have := pi_gt_d2; nlinarith
theorem pi_sq_hi : π ^ 2 < 9.93 := by have := pi_lt_d2; have := pi_pos; nlinarith

/-! ## Small times, sheet -/

/-- `exp(-(u/A)²)` written with `α = 1/A²`. -/
theorem gauss_alg {z y w : ℝ} (hz : 1 ≤ z) (hy : 0 < y) (hzy : z * y = 1) (hw : 0 < w) (hw3 : w ≤ 1 / 3) (hzw : z ^ 2 * w ≤ 1) :
    w ^ 2 * (z ^ 3 - y ^ 3) ≤ z - y ∧ w ^ 6 * (z ^ 7 - y ^ 7) ≤ z ^ 5 - y ^ 5 := by
  have hy1 : y ≤ 1 := by nlinarith
  have h1 : z ^ 3 - y ^ 3 = (z - y) * (z ^ 2 + 1 + y ^ 2) := by linear_combination (z - y) * hzy
  have h2 : z ^ 7 - y ^ 7 = (z ^ 5 - y ^ 5) * (z ^ 2 + y ^ 2) - (z ^ 3 - y ^ 3) := by
    have : (z * y) ^ 2 = 1 := by rw [hzy]; ring
    linear_combination -(z ^ 3 - y ^ 3) * this
  have hz2 : 1 ≤ z ^ 2 := by nlinarith
  have hy2 : y ^ 2 ≤ z ^ 2 := by nlinarith
  have hyz : y ≤ z := hy1.trans hz
  have h35 : 0 ≤ z ^ 3 - y ^ 3 := by have := pow_le_pow_left₀ hy.le hyz 3; linarith
  have h5 : 0 ≤ z ^ 5 - y ^ 5 := by have := pow_le_pow_left₀ hy.le hyz 5; linarith
  have hk : w ^ 2 * (z ^ 2 + 1 + y ^ 2) ≤ 1 := by
    have : w ^ 2 * (z ^ 2 + 1 + y ^ 2) ≤ w * (3 * (z ^ 2 * w)) := by nlinarith [sq_nonneg w]
    nlinarith
  constructor
  · rw [h1]
    have := mul_le_mul_of_nonneg_left hk (sub_nonneg.2 hyz)
    linarith
  · have hw5 : w ^ 5 ≤ 1 / 3 := by
      have := pow_le_pow_left₀ hw.le hw3 5
      norm_num at this; linarith
    have hk2 : w ^ 6 * (z ^ 2 + y ^ 2) ≤ 1 := by
      have : w ^ 6 * (z ^ 2 + y ^ 2) ≤ w ^ 5 * (2 * (z ^ 2 * w)) := by
        have : w ^ 5 * (2 * (z ^ 2 * w)) - w ^ 6 * (z ^ 2 + y ^ 2) = w ^ 6 * (z ^ 2 - y ^ 2) := by ring
        have : 0 ≤ w ^ 6 * (z ^ 2 - y ^ 2) := mul_nonneg (by positivity) (by linarith)
        linarith
      have : w ^ 5 * (2 * (z ^ 2 * w)) ≤ 1 / 3 * 2 := by
        refine mul_le_mul hw5 (by linarith) (by positivity) (by norm_num)
      linarith
    have h6 : w ^ 6 * (z ^ 7 - y ^ 7) ≤ (z ^ 5 - y ^ 5) * (w ^ 6 * (z ^ 2 + y ^ 2)) := by
      have h0 : 0 ≤ w ^ 6 * (z ^ 3 - y ^ 3) := mul_nonneg (by positivity) h35
      rw [h2]
      linarith
    have := mul_le_mul_of_nonneg_left hk2 h5
    linarith

theorem exp_four : (54 : ℝ) < exp 4 := by
  have h := exp_one_gt_d9
  have : exp 4 = exp 1 ^ 4 := by rw [← exp_nat_mul]; norm_num
  rw [this]
  have := pow_lt_pow_left₀ h (by norm_num) (n := 4) (by norm_num)
  norm_num at this ⊢
  linarith

theorem gauss_pair {α x : ℝ} (hα : 1 ≤ α) (h0 : 0 ≤ x) (h1 : x ≤ 1) :
    exp (-(α * (3 - x) ^ 2)) - exp (-(α * (3 + x) ^ 2)) ≤ exp (-(α * (1 - x) ^ 2)) - exp (-(α * (1 + x) ^ 2)) ∧
    exp (-(α * (7 - x) ^ 2)) - exp (-(α * (7 + x) ^ 2)) ≤ exp (-(α * (5 - x) ^ 2)) - exp (-(α * (5 + x) ^ 2)) := by
  set z := exp (2 * α * x) with hz
  set y := exp (-(2 * α * x)) with hy
  set w := exp (-(4 * α)) with hw
  have hzy : z * y = 1 := by rw [hz, hy, ← exp_add]; simp
  have hw3 : w ≤ 1 / 3 := by
    have h4 : exp (-(4 * α)) ≤ exp (-4) := exp_le_exp.2 (by linarith)
    rw [exp_neg 4] at h4
    have := exp_four
    have h5 : (exp 4)⁻¹ ≤ 1 / 3 := by rw [inv_le_comm₀ (by positivity) (by norm_num)]; linarith
    exact h4.trans h5
  have hzw : z ^ 2 * w ≤ 1 := by
    rw [hz, hw, ← exp_nat_mul, ← exp_add, ← exp_zero]
    exact exp_le_exp.2 (by push_cast; nlinarith)
  have key := gauss_alg (one_le_exp (by positivity)) (exp_pos _) hzy (exp_pos _) hw3 hzw
  have e : ∀ m : ℕ, exp (-(α * ((m : ℝ) - x) ^ 2)) = exp (-(α * m ^ 2 + α * x ^ 2)) * z ^ m ∧
      exp (-(α * ((m : ℝ) + x) ^ 2)) = exp (-(α * m ^ 2 + α * x ^ 2)) * y ^ m := by
    intro m
    rw [hz, hy, ← exp_nat_mul, ← exp_nat_mul, ← exp_add, ← exp_add]
    constructor <;> congr 1 <;> ring
  have q1 : exp (-(α * (3 : ℕ) ^ 2 + α * x ^ 2)) = exp (-(α * (1 : ℕ) ^ 2 + α * x ^ 2)) * w ^ 2 := by
    rw [hw, ← exp_nat_mul, ← exp_add]; congr 1; push_cast; ring
  have q5 : exp (-(α * (7 : ℕ) ^ 2 + α * x ^ 2)) = exp (-(α * (5 : ℕ) ^ 2 + α * x ^ 2)) * w ^ 6 := by
    rw [hw, ← exp_nat_mul, ← exp_add]; congr 1; push_cast; ring
  have e1 := e 1
  have e3 := e 3
  have e5 := e 5
  have e7 := e 7
  rw [q1] at e3
  rw [q5] at e7
  push_cast at e1 e3 e5 e7
  rw [e1.1, e1.2, e3.1, e3.2, e5.1, e5.2, e7.1, e7.2]
  have p1 := (exp_pos (-(α * 1 ^ 2 + α * x ^ 2))).le
  have p5 := (exp_pos (-(α * 5 ^ 2 + α * x ^ 2))).le
  refine ⟨?_, ?_⟩
  · have := mul_le_mul_of_nonneg_left key.1 p1
    linarith
  · have := mul_le_mul_of_nonneg_left key.2 p5
    linarith

/-- Derivatives of shifted, scaled `erfc`. -/
theorem erfc_sub_deriv (A m x : ℝ) : HasDerivAt (fun x => erfc ((m - x) / A)) (2 / √π / A * exp (-((m - x) / A) ^ 2)) x := by
  have h : HasDerivAt (fun x : ℝ => (m - x) / A) (-1 / A) x := ((hasDerivAt_id x).const_sub m).div_const A
  refine ((erfc_hasDerivAt _).comp x h).congr_deriv ?_
  ring
theorem erfc_add_deriv (A m x : ℝ) : HasDerivAt (fun x => erfc ((m + x) / A)) (-(2 / √π / A * exp (-((m + x) / A) ^ 2))) x := by
  have h : HasDerivAt (fun x : ℝ => (m + x) / A) (1 / A) x := ((hasDerivAt_id x).const_add m).div_const A
  refine ((erfc_hasDerivAt _).comp x h).congr_deriv ?_
  ring

/-- The small-time sheet series. -/
noncomputable def sheetS (A x : ℝ) : ℝ :=
  (erfc ((1 - x) / A) + erfc ((1 + x) / A)) - (erfc ((3 - x) / A) + erfc ((3 + x) / A)) +
    (erfc ((5 - x) / A) + erfc ((5 + x) / A)) - (erfc ((7 - x) / A) + erfc ((7 + x) / A))

theorem sheetS_hasDerivAt (A x : ℝ) : HasDerivAt (sheetS A) (2 / √π / A *
    ((exp (-((1 - x) / A) ^ 2) - exp (-((1 + x) / A) ^ 2)) - (exp (-((3 - x) / A) ^ 2) - exp (-((3 + x) / A) ^ 2)) +
    (exp (-((5 - x) / A) ^ 2) - exp (-((5 + x) / A) ^ 2)) - (exp (-((7 - x) / A) ^ 2) - exp (-((7 + x) / A) ^ 2)))) x := by
  refine (((((erfc_sub_deriv A 1 x).add (erfc_add_deriv A 1 x)).sub ((erfc_sub_deriv A 3 x).add (erfc_add_deriv A 3 x))).add
    ((erfc_sub_deriv A 5 x).add (erfc_add_deriv A 5 x))).sub ((erfc_sub_deriv A 7 x).add (erfc_add_deriv A 7 x))).congr_deriv ?_
  ring

theorem sheetS_mono {A : ℝ} (hA : 0 < A) (hA1 : A ≤ 1) : MonotoneOn (sheetS A) (Set.Icc 0 1) := by
  refine monotoneOn_of_deriv_nonneg (convex_Icc _ _) (fun x _ => (sheetS_hasDerivAt A x).continuousAt.continuousWithinAt)
    (fun x _ => (sheetS_hasDerivAt A x).differentiableAt.differentiableWithinAt) fun x hx => ?_
  rw [interior_Icc] at hx
  rw [(sheetS_hasDerivAt A x).deriv]
  have hs := sqrt_pos.2 pi_pos
  have e : ∀ u : ℝ, -(u / A) ^ 2 = -(1 / A ^ 2 * u ^ 2) := fun u => by field_simp
  simp only [e]
  have := gauss_pair (α := 1 / A ^ 2) (by rw [le_div_iff₀ (by positivity)]; nlinarith) hx.1.le hx.2.le
  exact mul_nonneg (by positivity) (by linarith [this.1, this.2])

theorem sheetS_nonneg {A : ℝ} (hA : 0 < A) (x : ℝ) : 0 ≤ sheetS A x := by
  have h : ∀ {a b : ℝ}, a ≤ b → erfc (b / A) ≤ erfc (a / A) := fun h => erfc_strictAnti.antitone (div_le_div_of_nonneg_right h hA.le)
  have h1 := h (show 1 - x ≤ 3 - x by linarith)
  have h2 := h (show 1 + x ≤ 3 + x by linarith)
  have h3 := h (show 5 - x ≤ 7 - x by linarith)
  have h4 := h (show 5 + x ≤ 7 + x by linarith)
  unfold sheetS
  linarith

theorem sheetS_one (A : ℝ) : sheetS A 1 = 1 - erfc (8 / A) := by
  unfold sheetS
  norm_num [erfc_zero]
  ring

theorem sheetS_le {A x : ℝ} (hA : 0 < A) (hA1 : A ≤ 1) (h0 : 0 ≤ x) (h1 : x ≤ 1) : sheetS A x ≤ 1 := by
  have := sheetS_mono hA hA1 ⟨h0, h1⟩ ⟨zero_le_one, le_rfl⟩ h1
  rw [sheetS_one] at this
  have := erfc_pos (8 / A)
  linarith

theorem profileSheet_small {Fo x : ℝ} (h0 : 0 < Fo) (h1 : Fo < 1 / 4) : profileSheet Fo x = sheetS (2 * √Fo) x := by
  unfold profileSheet sheetS
  rw [if_neg h0.ne', if_pos h1]
  simp only [sum04, sgn0, sgn1, sgn2, sgn3]
  norm_num
  ring

theorem A_bounds {Fo : ℝ} (h0 : 0 < Fo) (h1 : Fo < 1 / 4) : 0 < √Fo ∧ √Fo < 1 / 2 := by
  refine ⟨sqrt_pos.2 h0, ?_⟩
  rw [sqrt_lt' (by norm_num)]
  linarith

/-! ## Small times, sphere -/

noncomputable def sphereS (A r : ℝ) : ℝ :=
  (erfc ((1 - r) / A) - erfc ((1 + r) / A)) + (erfc ((3 - r) / A) - erfc ((3 + r) / A)) +
    (erfc ((5 - r) / A) - erfc ((5 + r) / A)) + (erfc ((7 - r) / A) - erfc ((7 + r) / A))

/-- `u exp(-α u²)`. -/
noncomputable def hh (α u : ℝ) : ℝ := u * exp (-(α * u ^ 2))

/-- Two points of `u exp(-α u²)` placed symmetrically about `m`. -/
theorem hh_pair {α m x : ℝ} (h : (m + x) ≤ (m - x) * exp (4 * α * m * x)) : hh α (m + x) ≤ hh α (m - x) := by
  have e : exp (-(α * (m - x) ^ 2)) = exp (-(α * (m + x) ^ 2)) * exp (4 * α * m * x) := by
    rw [← exp_add]; congr 1; ring
  unfold hh
  rw [e]
  have := mul_le_mul_of_nonneg_right h (exp_pos (-(α * (m + x) ^ 2))).le
  linarith

theorem hh_pair3 {α m x : ℝ} (hα : 1 ≤ α) (hm : 3 ≤ m) (h0 : 0 ≤ x) (h1 : x ≤ 1) : hh α (m + x) ≤ hh α (m - x) := by
  refine hh_pair ?_
  have h2 : 1 + 4 * α * m * x ≤ exp (4 * α * m * x) := by have := add_one_le_exp (4 * α * m * x); linarith
  have h3 : 4 * 1 * m * x ≤ 4 * α * m * x := by gcongr
  have h4 : (m - x) * (1 + 4 * 1 * m * x) ≤ (m - x) * exp (4 * α * m * x) := mul_le_mul_of_nonneg_left (by linarith) (by linarith)
  nlinarith [mul_nonneg h0 (by linarith : (0 : ℝ) ≤ m), mul_nonneg h0 (by linarith : (0 : ℝ) ≤ m - 3)]

theorem hh_pair1 {α r : ℝ} (hα : 1 ≤ α) (h0 : 0 ≤ r) (h1 : r ≤ 1) (hy : 1 ≤ 4 * α * (1 - r)) : hh α (1 + r) ≤ hh α (1 - r) := by
  refine hh_pair ?_
  rw [mul_one]
  rcases le_total r (1 / 2) with h | h
  · have h2 : 1 + 4 * r ≤ exp (4 * α * r) := by
      have := add_one_le_exp (4 * α * r)
      nlinarith
    have := mul_le_mul_of_nonneg_left h2 (by linarith : (0 : ℝ) ≤ 1 - r)
    nlinarith
  · have h2 := quadratic_le_exp_of_nonneg (show 0 ≤ 4 * α * r by positivity)
    have h3 := mul_le_mul_of_nonneg_left h2 (by linarith : (0 : ℝ) ≤ 1 - r)
    have h4 : r ≤ 4 * α * (1 - r) * r := by nlinarith
    have h5 : (4 * α * r ^ 2) / 2 ≤ 4 * α * (1 - r) * (4 * α * r ^ 2) / 2 := by
      have : 0 ≤ 4 * α * r ^ 2 := by positivity
      nlinarith
    have h6 : r ≤ (4 * α * r ^ 2) / 2 := by nlinarith
    have h7 : (1 - r) * (1 + 4 * α * r + (4 * α * r) ^ 2 / 2) = (1 - r) + 4 * α * (1 - r) * r + 4 * α * (1 - r) * (4 * α * r ^ 2) / 2 := by ring
    linarith

/-- Each pair of image terms near the surface is small. -/
theorem hh_near {α m y : ℝ} (hα : 1 ≤ α) (hm : 2 ≤ m) (h0 : 0 ≤ y) (hy : 4 * α * y ≤ 1) :
    hh α (m - y) - hh α (m + y) ≤ hh α y * (4 * m ^ 2 * exp (m / 2 - m ^ 2)) := by
  have e1 : exp (-(α * (m - y) ^ 2)) = exp (-(α * y ^ 2)) * exp (-(α * m ^ 2)) * exp (2 * α * m * y) := by
    rw [← exp_add, ← exp_add]; congr 1; ring
  have e2 : exp (-(α * (m + y) ^ 2)) = exp (-(α * y ^ 2)) * exp (-(α * m ^ 2)) * exp (-(2 * α * m * y)) := by
    rw [← exp_add, ← exp_add]; congr 1; ring
  have hp1 := exp_pos (-(α * y ^ 2))
  have hp2 := exp_pos (-(α * m ^ 2))
  set s := 2 * α * m * y with hs
  have hs0 : 0 ≤ s := by positivity
  have hs1 : s ≤ m / 2 := by rw [hs]; nlinarith
  have hb : (m - y) * exp s - (m + y) * exp (-s) ≤ m * (2 * s * exp s) := by
    have h1 : exp s - exp (-s) ≤ 2 * s * exp s := by
      have := add_one_le_exp (-(2 * s))
      have h2 : exp (-s) = exp s * exp (-(2 * s)) := by rw [← exp_add]; congr 1; ring
      rw [h2]
      nlinarith [exp_pos s]
    have h3 : 0 ≤ y * exp s + y * exp (-s) := by positivity
    nlinarith
  have hα2 : α * exp (-(α * m ^ 2)) ≤ exp (-m ^ 2) := by
    have h1 : α ≤ exp ((α - 1) * m ^ 2) := by
      have := add_one_le_exp ((α - 1) * m ^ 2)
      have h2 : α - 1 ≤ (α - 1) * m ^ 2 := by
        have : 1 ≤ m ^ 2 := by nlinarith
        nlinarith
      linarith
    have h2 : exp (-m ^ 2) = exp ((α - 1) * m ^ 2) * exp (-(α * m ^ 2)) := by rw [← exp_add]; congr 1; ring
    rw [h2]
    exact mul_le_mul_of_nonneg_right h1 hp2.le
  have e3 : exp (m / 2 - m ^ 2) = exp (m / 2) * exp (-m ^ 2) := by rw [← exp_add]; congr 1
  unfold hh
  rw [e1, e2, e3]
  calc (m - y) * (exp (-(α * y ^ 2)) * exp (-(α * m ^ 2)) * exp s) - (m + y) * (exp (-(α * y ^ 2)) * exp (-(α * m ^ 2)) * exp (-s))
      = exp (-(α * y ^ 2)) * exp (-(α * m ^ 2)) * ((m - y) * exp s - (m + y) * exp (-s)) := by ring
    _ ≤ exp (-(α * y ^ 2)) * exp (-(α * m ^ 2)) * (m * (2 * s * exp s)) := mul_le_mul_of_nonneg_left hb (by positivity)
    _ = exp (-(α * y ^ 2)) * y * (4 * m ^ 2) * exp s * (α * exp (-(α * m ^ 2))) := by rw [hs]; ring
    _ ≤ exp (-(α * y ^ 2)) * y * (4 * m ^ 2) * exp (m / 2) * exp (-m ^ 2) := by
        refine mul_le_mul (mul_le_mul_of_nonneg_left (exp_le_exp.2 hs1) (by positivity)) hα2 (by positivity) (by positivity)
    _ = _ := by ring

theorem near_const : 4 * (2 : ℝ) ^ 2 * exp (2 / 2 - 2 ^ 2) + 4 * (4 : ℝ) ^ 2 * exp (4 / 2 - 4 ^ 2) + 4 * (6 : ℝ) ^ 2 * exp (6 / 2 - 6 ^ 2) +
    4 * (8 : ℝ) ^ 2 * exp (8 / 2 - 8 ^ 2) ≤ 1 := by
  have h1 := exp_one_gt_d9
  have h3 : exp (-3) ≤ 0.05 := by
    have : exp 3 = exp 1 ^ 3 := by rw [← exp_nat_mul]; norm_num
    rw [exp_neg, inv_le_comm₀ (exp_pos _) (by norm_num), this]
    have := pow_lt_pow_left₀ h1 (by norm_num) (n := 3) (by norm_num)
    norm_num at this ⊢
    linarith
  have h12 : exp (-12) ≤ 0.05 ^ 4 := by
    have : exp (-12) = exp (-3) ^ 4 := by rw [← exp_nat_mul]; norm_num
    rw [this]
    exact pow_le_pow_left₀ (exp_pos _).le h3 4
  have m14 : exp (4 / 2 - 4 ^ 2) ≤ exp (-12) := exp_le_exp.2 (by norm_num)
  have m33 : exp (6 / 2 - 6 ^ 2) ≤ exp (-12) := exp_le_exp.2 (by norm_num)
  have m60 : exp (8 / 2 - 8 ^ 2) ≤ exp (-12) := exp_le_exp.2 (by norm_num)
  have m3 : exp (2 / 2 - 2 ^ 2) = exp (-3) := by norm_num
  rw [m3]
  norm_num at h12 h3 ⊢
  linarith

theorem hh_sum {α r : ℝ} (hα : 1 ≤ α) (h0 : 0 ≤ r) (h1 : r ≤ 1) :
    0 ≤ (hh α (1 - r) - hh α (1 + r)) + (hh α (3 - r) - hh α (3 + r)) + (hh α (5 - r) - hh α (5 + r)) + (hh α (7 - r) - hh α (7 + r)) + hh α (9 - r) := by
  rcases le_total 1 (4 * α * (1 - r)) with h | h
  · have p1 := hh_pair1 hα h0 h1 h
    have p3 := hh_pair3 hα (le_refl 3) h0 h1
    have p5 := hh_pair3 hα (show (3 : ℝ) ≤ 5 by norm_num) h0 h1
    have p7 := hh_pair3 hα (show (3 : ℝ) ≤ 7 by norm_num) h0 h1
    have p9 : 0 ≤ hh α (9 - r) := mul_nonneg (by linarith) (exp_pos _).le
    linarith
  · have hy : 0 ≤ 1 - r := by linarith
    have n2 := hh_near hα (le_refl 2) hy h
    have n4 := hh_near hα (show (2 : ℝ) ≤ 4 by norm_num) hy h
    have n6 := hh_near hα (show (2 : ℝ) ≤ 6 by norm_num) hy h
    have n8 := hh_near hα (show (2 : ℝ) ≤ 8 by norm_num) hy h
    have hp : 0 ≤ hh α (1 - r) := mul_nonneg hy (exp_pos _).le
    have := mul_le_mul_of_nonneg_left near_const hp
    rw [show (2 : ℝ) - (1 - r) = 1 + r by ring, show (2 : ℝ) + (1 - r) = 3 - r by ring] at n2
    rw [show (4 : ℝ) - (1 - r) = 3 + r by ring, show (4 : ℝ) + (1 - r) = 5 - r by ring] at n4
    rw [show (6 : ℝ) - (1 - r) = 5 + r by ring, show (6 : ℝ) + (1 - r) = 7 - r by ring] at n6
    rw [show (8 : ℝ) - (1 - r) = 7 + r by ring, show (8 : ℝ) + (1 - r) = 9 - r by ring] at n8
    linarith

theorem gauss_sub_deriv {A : ℝ} (hA : A ≠ 0) (m x : ℝ) :
    HasDerivAt (fun x => exp (-((m - x) / A) ^ 2)) (2 / A ^ 2 * hh (1 / A ^ 2) (m - x)) x := by
  have h : HasDerivAt (fun x : ℝ => (m - x) / A) (-1 / A) x := ((hasDerivAt_id x).const_sub m).div_const A
  refine ((exp_sq_hasDerivAt _).comp x h).congr_deriv ?_
  unfold hh
  rw [show -((m - x) / A) ^ 2 = -(1 / A ^ 2 * (m - x) ^ 2) by field_simp]
  field_simp
theorem gauss_add_deriv {A : ℝ} (hA : A ≠ 0) (m x : ℝ) :
    HasDerivAt (fun x => exp (-((m + x) / A) ^ 2)) (-(2 / A ^ 2 * hh (1 / A ^ 2) (m + x))) x := by
  have h : HasDerivAt (fun x : ℝ => (m + x) / A) (1 / A) x := ((hasDerivAt_id x).const_add m).div_const A
  refine ((exp_sq_hasDerivAt _).comp x h).congr_deriv ?_
  unfold hh
  rw [show -((m + x) / A) ^ 2 = -(1 / A ^ 2 * (m + x) ^ 2) by field_simp]
  field_simp

noncomputable def sphereD (A r : ℝ) : ℝ := 2 / √π / A * 
  ((exp (-((1 - r) / A) ^ 2) + exp (-((1 + r) / A) ^ 2)) + (exp (-((3 - r) / A) ^ 2) + exp (-((3 + r) / A) ^ 2)) +
    (exp (-((5 - r) / A) ^ 2) + exp (-((5 + r) / A) ^ 2)) + (exp (-((7 - r) / A) ^ 2) + exp (-((7 + r) / A) ^ 2)))

theorem sphereS_hasDerivAt (A r : ℝ) : HasDerivAt (sphereS A) (sphereD A r) r := by
  refine (((((erfc_sub_deriv A 1 r).sub (erfc_add_deriv A 1 r)).add ((erfc_sub_deriv A 3 r).sub (erfc_add_deriv A 3 r))).add
    ((erfc_sub_deriv A 5 r).sub (erfc_add_deriv A 5 r))).add ((erfc_sub_deriv A 7 r).sub (erfc_add_deriv A 7 r))).congr_deriv ?_
  unfold sphereD
  ring

theorem sphereD_hasDerivAt {A : ℝ} (hA : A ≠ 0) (r : ℝ) : HasDerivAt (sphereD A) (2 / √π / A * (2 / A ^ 2) *
    ((hh (1 / A ^ 2) (1 - r) - hh (1 / A ^ 2) (1 + r)) + (hh (1 / A ^ 2) (3 - r) - hh (1 / A ^ 2) (3 + r)) +
     (hh (1 / A ^ 2) (5 - r) - hh (1 / A ^ 2) (5 + r)) + (hh (1 / A ^ 2) (7 - r) - hh (1 / A ^ 2) (7 + r)))) r := by
  refine ((((((gauss_sub_deriv hA 1 r).add (gauss_add_deriv hA 1 r)).add ((gauss_sub_deriv hA 3 r).add (gauss_add_deriv hA 3 r))).add
    ((gauss_sub_deriv hA 5 r).add (gauss_add_deriv hA 5 r))).add ((gauss_sub_deriv hA 7 r).add (gauss_add_deriv hA 7 r))).const_mul (2 / √π / A)).congr_deriv ?_
  ring

theorem sphereS_nonneg {A : ℝ} (hA : 0 < A) {r : ℝ} (hr : 0 ≤ r) : 0 ≤ sphereS A r := by
  have h : ∀ m : ℝ, erfc ((m + r) / A) ≤ erfc ((m - r) / A) := fun m => erfc_strictAnti.antitone (div_le_div_of_nonneg_right (by linarith) hA.le)
  have := h 1
  have := h 3
  have := h 5
  have := h 7
  unfold sphereS
  linarith

theorem sphereS_le {A r : ℝ} (hA : 0 < A) (hA1 : A ≤ 1) (h0 : 0 ≤ r) (h1 : r ≤ 1) : sphereS A r ≤ r := by
  have hs := sqrt_pos.2 pi_pos
  have hα : 1 ≤ 1 / A ^ 2 := by rw [le_div_iff₀ (by positivity)]; nlinarith
  have hd1 : ∀ r, HasDerivAt (fun r => sphereS A r + erfc ((9 - r) / A)) (sphereD A r + 2 / √π / A * exp (-((9 - r) / A) ^ 2)) r := fun r =>
    (sphereS_hasDerivAt A r).add (erfc_sub_deriv A 9 r)
  have hd2 := fun r => (sphereD_hasDerivAt hA.ne' r).add ((gauss_sub_deriv hA.ne' 9 r).const_mul (2 / √π / A))
  have hc : ConvexOn ℝ (Set.Icc 0 1) (fun r => sphereS A r + erfc ((9 - r) / A)) := by
    refine convexOn_of_hasDerivWithinAt2_nonneg (convex_Icc 0 1) (fun r _ => (hd1 r).continuousAt.continuousWithinAt)
      (fun r _ => (hd1 r).hasDerivWithinAt) (fun r _ => (hd2 r).hasDerivWithinAt) fun r hr => ?_
    rw [interior_Icc] at hr
    have := hh_sum hα hr.1.le hr.2.le
    have h2 : 0 ≤ 2 / √π / A * (2 / A ^ 2) := by positivity
    have := mul_nonneg h2 this
    refine this.trans_eq ?_
    ring
  have key := hc.2 (show (0 : ℝ) ∈ Set.Icc 0 1 from ⟨le_rfl, zero_le_one⟩) (show (1 : ℝ) ∈ Set.Icc 0 1 from ⟨zero_le_one, le_rfl⟩) (show 0 ≤ 1 - r by linarith) h0 (by ring)
  simp only [smul_eq_mul, mul_zero, mul_one, zero_add] at key
  have s0 : sphereS A 0 = 0 := by unfold sphereS; norm_num
  have s1 : sphereS A 1 + erfc ((9 - 1) / A) = 1 := by unfold sphereS; norm_num [erfc_zero]
  rw [s0, s1] at key
  have h9 : erfc ((9 - 0) / A) ≤ erfc ((9 - r) / A) := erfc_strictAnti.antitone (div_le_div_of_nonneg_right (by linarith) hA.le)
  have h9' := erfc_pos ((9 - 0) / A)
  nlinarith

theorem profileSphere_small {Fo r : ℝ} (h0 : 0 < Fo) (h1 : Fo < 1 / 4) (hr : eps ≤ |r|) : profileSphere Fo r = sphereS (2 * √Fo) r / r := by
  unfold profileSphere sphereS
  rw [if_neg (not_lt.2 hr), if_neg h0.ne', if_pos h1]
  simp only [sum04]
  norm_num

/-! ## Uptake -/

theorem ierfc_nonneg (x : ℝ) : 0 ≤ ierfc x := by
  unfold ierfc
  split_ifs
  · exact le_rfl
  · exact (ierfcR_pos x).le

theorem ierfc_le (x : ℝ) : ierfc x ≤ ierfcR x := by
  unfold ierfc
  split_ifs
  · exact (ierfcR_pos x).le
  · exact le_rfl

theorem ierfc_anti : Antitone ierfc := by
  intro x y h
  unfold ierfc
  split_ifs with h1 h2 h2
  · exact le_rfl
  · exact (ierfcR_pos x).le
  · linarith
  · exact ierfcR_strictAnti.antitone h

theorem sqrt_pi_bounds : 1.772 < √π ∧ √π < 1.7727 := by
  constructor
  · rw [lt_sqrt (by norm_num)]; have := pi_gt_d4; norm_num at this ⊢; linarith
  · rw [sqrt_lt' (by norm_num)]; have := pi_lt_d4; norm_num at this ⊢; linarith

theorem exp_neg_four : exp (-4) ≤ 1 / 54 := by
  rw [exp_neg, inv_le_comm₀ (exp_pos _) (by norm_num)]
  have := exp_four
  norm_num; linarith

theorem ierfc_two {x : ℝ} (h : 2 ≤ x) : ierfc x ≤ 1 / 54 / √π / 8 := by
  have hs := sqrt_pos.2 pi_pos
  refine (ierfc_anti h).trans ((ierfc_le 2).trans ((ierfcR_le (by norm_num)).trans ?_))
  have := exp_neg_four
  norm_num at this ⊢
  gcongr

end Verif.Diffusion
