import Mathlib.Analysis.SpecialFunctions.Pow.Real
import Mathlib.Analysis.SpecificLimits.Basic

/-!
# Bounds for positive solutions of `n(m) (m + 2 n(m + 1)) = α`
-/

namespace Verif.NBar

open Real

/-- Lower bound. -/
noncomputable def lo (α m : ℝ) : ℝ := 2 * α / (m + √(8 * α + m ^ 2))

/-- Upper bound. -/
noncomputable def up (α m : ℝ) : ℝ := 2 * α / (m - 1 + √(8 * α + (m + 1) ^ 2))

variable {α : ℝ} (hα : 0 < α)
include hα

theorem lo_den {m : ℝ} (hm : 0 ≤ m) : 0 < m + √(8 * α + m ^ 2) := by
  have : 0 < √(8 * α + m ^ 2) := Real.sqrt_pos.2 (by positivity)
  linarith

theorem up_den {m : ℝ} (hm : 0 ≤ m) : m + 1 < √(8 * α + (m + 1) ^ 2) := by
  apply Real.lt_sqrt_of_sq_lt; linarith

theorem up_den_pos {m : ℝ} (hm : 0 ≤ m) : 0 < m - 1 + √(8 * α + (m + 1) ^ 2) := by
  linarith [up_den hα hm]

theorem lo_pos {m : ℝ} (hm : 0 ≤ m) : 0 < lo α m := div_pos (by linarith) (lo_den hα hm)

theorem up_pos {m : ℝ} (hm : 0 ≤ m) : 0 < up α m := div_pos (by linarith) (up_den_pos hα hm)

/-- `up` is the image of `lo`. -/
theorem up_eq {m : ℝ} (hm : 0 ≤ m) : up α m * (m + 2 * lo α (m + 1)) = α := by
  have h1 := (lo_den hα (show 0 ≤ m + 1 by linarith)).ne'
  have h2 := (up_den_pos hα hm).ne'
  have hs : √(8 * α + (m + 1) ^ 2) ^ 2 = 8 * α + (m + 1) ^ 2 := Real.sq_sqrt (by positivity)
  unfold up lo
  generalize √(8 * α + (m + 1) ^ 2) = S at *
  field_simp
  linear_combination (-1) * hs

/-- The convexity step. -/
theorem mean_sq (p S m : ℝ) : (p * S + (1 - p) * m) ^ 2 = p * S ^ 2 + (1 - p) * m ^ 2 - p * (1 - p) * (S - m) ^ 2 := by ring

theorem up_succ {m : ℝ} (hm : 0 ≤ m) :
    4 * up α (m + 1) + m = (2 * α / (2 * α + m + 1)) * √(8 * α + (m + 2) ^ 2) + (1 - 2 * α / (2 * α + m + 1)) * m := by
  have h2 := (up_den_pos hα (show 0 ≤ m + 1 by linarith)).ne'
  have hs : √(8 * α + (m + 2) ^ 2) ^ 2 = 8 * α + (m + 2) ^ 2 := Real.sq_sqrt (by positivity)
  have hD : 2 * α + m + 1 ≠ 0 := by positivity
  unfold up
  rw [show m + 1 + 1 = m + 2 by ring] at *
  generalize √(8 * α + (m + 2) ^ 2) = S at *
  rw [show m + 1 - 1 = m by ring] at *
  field_simp
  linear_combination (-2 * α) * hs

theorem lo_le {m : ℝ} (hm : 0 ≤ m) : lo α m * (m + 2 * up α (m + 1)) ≤ α := by
  have h1 := lo_den hα hm
  unfold lo
  rw [div_mul_eq_mul_div, div_le_iff₀ h1]
  suffices h : 4 * up α (m + 1) + m ≤ √(8 * α + m ^ 2) by nlinarith
  rw [up_succ hα hm]
  apply Real.le_sqrt_of_sq_le
  have hs : √(8 * α + (m + 2) ^ 2) ^ 2 = 8 * α + (m + 2) ^ 2 := Real.sq_sqrt (by positivity)
  rw [mean_sq hα, hs]
  have hD : 0 < 2 * α + m + 1 := by positivity
  have hp : 0 ≤ 2 * α / (2 * α + m + 1) := by positivity
  have hp1 : 0 ≤ 1 - 2 * α / (2 * α + m + 1) := by
    rw [sub_nonneg, div_le_one hD]; linarith
  have e : 2 * α / (2 * α + m + 1) * (8 * α + (m + 2) ^ 2) + (1 - 2 * α / (2 * α + m + 1)) * m ^ 2 = 8 * α + m ^ 2 := by
    field_simp; ring
  have := mul_nonneg (mul_nonneg hp hp1) (sq_nonneg (√(8 * α + (m + 2) ^ 2) - m))
  linarith

theorem lo_le_div {m : ℝ} (hm : 0 < m) : lo α m ≤ α / m := by
  unfold lo
  rw [div_le_div_iff₀ (lo_den hα hm.le) hm]
  have : m ≤ √(8 * α + m ^ 2) := Real.le_sqrt_of_sq_le (by linarith)
  nlinarith

theorem le_up_of {m : ℝ} (hm : 1 ≤ m) : α / m ≤ (1 + α) * up α m := by
  have h := up_den_pos hα (show 0 ≤ m by linarith)
  unfold up
  rw [← mul_div_assoc, div_le_div_iff₀ (by linarith) h]
  have : √(8 * α + (m + 1) ^ 2) ≤ m + 1 + 2 * α := by
    rw [Real.sqrt_le_left (by positivity)]
    nlinarith
  nlinarith [mul_pos hα hα, mul_nonneg (mul_pos hα hα).le (sub_nonneg.2 hm)]

/-- A positive solution of the recurrence lies between the bounds. -/
theorem bounds (n : ℝ → ℝ) (hpos : ∀ m, 0 ≤ m → 0 < n m) (hrec : ∀ m, 0 ≤ m → n m * (m + 2 * n (m + 1)) = α) :
    ∀ m, 0 ≤ m → lo α m ≤ n m ∧ n m ≤ up α m := by
  have ndiv : ∀ m, 0 < m → n m ≤ α / m := by
    intro m hm
    rw [le_div_iff₀ hm]
    have := hrec m hm.le
    have := mul_pos (hpos m hm.le) (hpos (m + 1) (by linarith))
    nlinarith
  -- one step down
  have step1 : ∀ m ε, 0 ≤ m → 0 ≤ ε → lo α (m + 1) ≤ (1 + ε) * n (m + 1) →
      n m * (m + 2 * lo α (m + 1)) ≤ up α m * (m + 2 * lo α (m + 1)) + ε * (2 * lo α (m + 1)) * up α m := by
    intro m ε hm hε h
    have e1 := hrec m hm
    have e2 := up_eq hα hm
    have p1 := hpos m hm
    have p2 := up_pos hα hm
    have p3 := hpos (m + 1) (by linarith)
    have p4 := lo_pos hα (show 0 ≤ m + 1 by linarith)
    have k1 : n m * (m + 2 * lo α (m + 1)) ≤ n m * (m + (1 + ε) * (2 * n (m + 1))) :=
      mul_le_mul_of_nonneg_left (by linarith) p1.le
    have k2 : n m * (m + (1 + ε) * (2 * n (m + 1))) = α + ε * (2 * (n m * n (m + 1))) := by linear_combination e1
    have k3 : 2 * (n m * n (m + 1)) ≤ α := by nlinarith [mul_nonneg p1.le hm]
    -- sharper: bound 2 n n' by 2 lo up via cases
    by_cases hc : n m ≤ up α m
    · have : n m * (m + 2 * lo α (m + 1)) ≤ up α m * (m + 2 * lo α (m + 1)) := mul_le_mul_of_nonneg_right hc (by linarith)
      have : 0 ≤ ε * (2 * lo α (m + 1)) * up α m := by positivity
      linarith
    · push Not at hc
      -- then n (m+1) < lo (m+1)
      have k4 : 2 * (n m * n (m + 1)) ≤ 2 * lo α (m + 1) * up α m := by
        have a1 : n m * m + 2 * (n m * n (m + 1)) = α := by linear_combination e1
        have a2 : up α m * m + 2 * lo α (m + 1) * up α m = α := by linear_combination e2
        nlinarith [mul_nonneg (sub_nonneg.2 hc.le) hm]
      have k5 := mul_le_mul_of_nonneg_left k4 hε
      linarith
  have step2 : ∀ m ε, 0 ≤ m → 0 ≤ ε → n (m + 1) ≤ (1 + ε) * up α (m + 1) →
      lo α m * (m + 2 * n (m + 1)) ≤ n m * (m + 2 * n (m + 1)) + ε * (2 * n (m + 1)) * n m := by
    intro m ε hm hε h
    have e1 := hrec m hm
    have e2 := lo_le hα hm
    have p1 := hpos m hm
    have p2 := lo_pos hα hm
    have p3 := hpos (m + 1) (by linarith)
    have p4 := up_pos hα (show 0 ≤ m + 1 by linarith)
    by_cases hc : lo α m ≤ n m
    · have : lo α m * (m + 2 * n (m + 1)) ≤ n m * (m + 2 * n (m + 1)) := mul_le_mul_of_nonneg_right hc (by linarith)
      have : 0 ≤ ε * (2 * n (m + 1)) * n m := by positivity
      linarith
    · push Not at hc
      have k1 : lo α m * (m + 2 * n (m + 1)) ≤ lo α m * (m + (1 + ε) * (2 * up α (m + 1))) :=
        mul_le_mul_of_nonneg_left (by linarith) p2.le
      have k4 : 2 * (lo α m * up α (m + 1)) ≤ 2 * n (m + 1) * n m := by
        have a1 : n m * m + 2 * n (m + 1) * n m = α := by linear_combination e1
        have a2 : lo α m * m + 2 * (lo α m * up α (m + 1)) ≤ α := by linarith
        nlinarith [mul_nonneg (sub_nonneg.2 hc.le) hm]
      have k5 := mul_le_mul_of_nonneg_left k4 hε
      nlinarith
  set ρ := 2 * α / (1 + 2 * α) with hρ
  have hρ0 : 0 ≤ ρ := by positivity
  have hρ1 : ρ < 1 := by rw [hρ, div_lt_one (by positivity)]; linarith
  -- contraction factor for m ≥ 1
  have fac : ∀ m x, 1 ≤ m → 0 ≤ x → x ≤ α → 2 * x ≤ ρ * (m + 2 * x) := by
    intro m x hm hx hxa
    rw [hρ, div_mul_eq_mul_div, le_div_iff₀ (by positivity)]
    nlinarith [mul_nonneg hα.le (sub_nonneg.2 hm)]
  have main : ∀ k : ℕ, ∀ m, 1 ≤ m → n m ≤ (1 + α * ρ ^ k) * up α m ∧ lo α m ≤ (1 + α * ρ ^ k) * n m := by
    intro k
    induction k with
    | zero =>
      intro m hm
      rw [pow_zero, mul_one]
      refine ⟨(ndiv m (by linarith)).trans (le_up_of hα hm), ?_⟩
      have h1 := lo_le_div hα (show 0 < m by linarith)
      refine h1.trans ?_
      rw [div_le_iff₀ (by linarith)]
      have h2 := hrec m (by linarith)
      have h3 := ndiv (m + 1) (by linarith)
      have h4 : α / (m + 1) ≤ α / 2 := div_le_div_of_nonneg_left hα.le (by norm_num) (by linarith)
      have h5 := hpos m (by linarith)
      have h6 : n m * (2 * n (m + 1)) ≤ n m * α := mul_le_mul_of_nonneg_left (by linarith) h5.le
      have h7 : n m * α ≤ n m * α * m := by
        have := mul_pos h5 hα
        nlinarith
      nlinarith
    | succ k ih =>
      intro m hm
      have hm0 : 0 ≤ m := by linarith
      have hε : 0 ≤ α * ρ ^ k := by positivity
      obtain ⟨i1, i2⟩ := ih (m + 1) (by linarith)
      have s1 := step1 m _ hm0 hε i2
      have s2 := step2 m _ hm0 hε i1
      have hl := lo_pos hα (show 0 ≤ m + 1 by linarith)
      have hn := hpos (m + 1) (by linarith)
      have b1 : lo α (m + 1) ≤ α := (lo_le_div hα (by linarith)).trans (div_le_self hα.le (by linarith))
      have b2 : n (m + 1) ≤ α := (ndiv (m + 1) (by linarith)).trans (div_le_self hα.le (by linarith))
      have f1 := fac m _ hm hl.le b1
      have f2 := fac m _ hm hn.le b2
      have u0 := up_pos hα hm0
      have n0 := hpos m hm0
      rw [pow_succ]
      constructor
      · have d : 0 < m + 2 * lo α (m + 1) := by linarith
        refine le_of_mul_le_mul_right ?_ d
        have := mul_le_mul_of_nonneg_left f1 (mul_nonneg hε u0.le)
        nlinarith
      · have d : 0 < m + 2 * n (m + 1) := by linarith
        refine le_of_mul_le_mul_right ?_ d
        have := mul_le_mul_of_nonneg_left f2 (mul_nonneg hε n0.le)
        nlinarith
  have lim : Filter.Tendsto (fun k : ℕ => 1 + α * ρ ^ k) Filter.atTop (nhds (1 + α * 0)) :=
    tendsto_const_nhds.add ((tendsto_pow_atTop_nhds_zero_of_lt_one hρ0 hρ1).const_mul α)
  have big : ∀ m, 1 ≤ m → lo α m ≤ n m ∧ n m ≤ up α m := by
    intro m hm
    constructor
    · have := le_of_tendsto_of_tendsto' (tendsto_const_nhds (x := lo α m)) (lim.mul_const (n m)) (fun k => (main k m hm).2)
      linarith
    · have := le_of_tendsto_of_tendsto' (tendsto_const_nhds (x := n m)) (lim.mul_const (up α m)) (fun k => (main k m hm).1)
      linarith
  intro m hm
  obtain ⟨b1, b2⟩ := big (m + 1) (by linarith)
  have s1 := step1 m 0 hm le_rfl (by linarith)
  have s2 := step2 m 0 hm le_rfl (by linarith)
  have hl := lo_pos hα (show 0 ≤ m + 1 by linarith)
  have hn := hpos (m + 1) (by linarith)
  constructor
  · exact le_of_mul_le_mul_right (by linarith) (show 0 < m + 2 * n (m + 1) by linarith)
  · exact le_of_mul_le_mul_right (by linarith) (show 0 < m + 2 * lo α (m + 1) by linarith)

end Verif.NBar
