import Verif.Model.Equations
import Verif.Lemmas.Vaporization
import Mathlib.Analysis.SpecialFunctions.Arsinh
import Mathlib.Analysis.Calculus.Deriv.MeanValue

/-! # Helper lemmas: DIPPR and Yaws equations -/

namespace Verif.Equations

open Real Vaporization

theorem odiv_scale {s : ℝ} (h : s ≠ 0) (a b : ℝ) : odiv (s * a) (s * b) = odiv a b := by
  unfold odiv
  by_cases hb : b = 0
  · simp [hb]
  · rw [if_neg hb, if_neg (mul_ne_zero h hb), mul_div_mul_left _ _ h]

theorem odiv_ne {a b : ℝ} (h : b ≠ 0) : odiv a b = some (a / b) := if_neg h

theorem pw_pos {x p : ℝ} (h : 0 < x) : pw x p = some (x ^ p) := if_neg (by rintro (h' | ⟨h', _⟩) <;> linarith)

theorem pw_nonneg {x p : ℝ} (h : 0 ≤ x) (hp : 0 ≤ p) : pw x p = some (x ^ p) := if_neg (by rintro (h' | ⟨_, h'⟩) <;> linarith)

theorem pw_neg {x p : ℝ} (h : x < 0) : pw x p = none := if_pos (Or.inl h)

theorem flog_pos {x : ℝ} (h : 0 < x) : flog x = some (log x) := if_pos h

/-- `sinh x < x cosh x` for positive `x`. -/
theorem sinh_lt_mul_cosh {x : ℝ} (h : 0 < x) : sinh x < x * cosh x := by
  have hd : ∀ y : ℝ, HasDerivAt (fun y => y * cosh y - sinh y) (y * sinh y) y := by
    intro y
    have := ((hasDerivAt_id y).mul (hasDerivAt_cosh y)).sub (hasDerivAt_sinh y)
    refine this.congr_deriv ?_
    simp
  have sm : StrictMonoOn (fun y => y * cosh y - sinh y) (Set.Ici 0) := by
    refine strictMonoOn_of_deriv_pos (convex_Ici 0) (fun y _ => (hd y).continuousAt.continuousWithinAt) ?_
    intro y hy
    rw [interior_Ici] at hy
    rw [(hd y).deriv]
    exact mul_pos hy (sinh_pos_iff.2 hy)
  have := sm (Set.mem_Ici.2 le_rfl) (Set.mem_Ici.2 h.le) h
  simp at this
  linarith

/-- `x / sinh x` falls strictly on the positive axis. -/
theorem div_sinh_anti {x y : ℝ} (hx : 0 < x) (h : x < y) : y / sinh y < x / sinh x := by
  have hd : ∀ y : ℝ, 0 < y → HasDerivAt (fun y => sinh y / y) ((cosh y * y - sinh y * 1) / y ^ 2) y :=
    fun y hy => (hasDerivAt_sinh y).div (hasDerivAt_id y) hy.ne'
  have sm : StrictMonoOn (fun y => sinh y / y) (Set.Ioi 0) := by
    refine strictMonoOn_of_deriv_pos (convex_Ioi 0) (fun y hy => (hd y hy).continuousAt.continuousWithinAt) ?_
    intro y hy
    rw [interior_Ioi] at hy
    rw [(hd y hy).deriv]
    have hy' : (0 : ℝ) < y := hy
    have := sinh_lt_mul_cosh hy
    exact div_pos (by linarith) (by positivity)
  have hy := hx.trans h
  have := sm hx hy h
  have h1 : 0 < sinh x / x := div_pos (sinh_pos_iff.2 hx) hx
  have h2 := inv_strictAnti₀ h1 this
  rwa [inv_div, inv_div] at h2

theorem div_sinh_bounds {x : ℝ} (h : 0 < x) : 0 < x / sinh x ∧ x / sinh x < 1 :=
  ⟨div_pos h (sinh_pos_iff.2 h), (div_lt_one (sinh_pos_iff.2 h)).2 (self_lt_sinh_iff.2 h)⟩

theorem div_sinh_neg (x : ℝ) : -x / sinh (-x) = x / sinh x := by rw [sinh_neg, neg_div_neg_eq]

theorem sq_div_cosh {x : ℝ} : (x / cosh x) ^ 2 < 1 := by
  have hc := cosh_pos x
  have h1 : |x| < cosh x := by
    rcases le_or_gt 0 x with h | h
    · rw [abs_of_nonneg h]
      exact (self_le_sinh_iff.2 h).trans_lt (sinh_lt_cosh x)
    · rw [abs_of_neg h, ← cosh_neg]
      exact (self_le_sinh_iff.2 (by linarith)).trans_lt (sinh_lt_cosh _)
  rw [sq_lt_one_iff_abs_lt_one, abs_div, abs_of_pos hc]
  exact (div_lt_one hc).2 h1

end Verif.Equations
