import Verif.Lemmas.DistCont
import Mathlib.Analysis.Calculus.Deriv.MeanValue
import Mathlib.Analysis.SpecialFunctions.PolynomialExp

/-! # Helper lemmas: the complementary error function and its integral -/

namespace Verif

open Real Set Filter

theorem erfc_hasDerivAt (x : ℝ) : HasDerivAt erfc (-(2 / √π * exp (-x ^ 2))) x := by
  have := (Dist.erf_hasDerivAt x).const_sub 1
  exact this

theorem erfc_zero : erfc 0 = 1 := by simp [erfc, erf]

theorem erfc_tendsto : Tendsto erfc atTop (nhds 0) := by
  have := Dist.erf_tendsto_atTop.const_sub 1
  rwa [sub_self] at this

theorem erfc_strictAnti : StrictAnti erfc := strictAnti_of_hasDerivAt_neg (fun x => erfc_hasDerivAt x) fun x => by
  have := sqrt_pos.2 pi_pos
  have : 0 < 2 / √π * exp (-x ^ 2) := by positivity
  linarith

theorem erfc_pos (x : ℝ) : 0 < erfc x :=
  (erfc_strictAnti.antitone.le_of_tendsto erfc_tendsto (x + 1)).trans_lt (erfc_strictAnti (lt_add_one x))

theorem erfc_le_one {x : ℝ} (h : 0 ≤ x) : erfc x ≤ 1 := by
  rw [← erfc_zero]; exact erfc_strictAnti.antitone h

theorem erfc_lt_two (x : ℝ) : erfc x < 2 := by
  have h : erfc (-x) = 2 - erfc x := by unfold erfc; rw [Dist.erf_neg]; ring
  have := erfc_pos (-x)
  linarith

/-- A function with nonpositive derivative tending to zero is nonnegative. -/
theorem nonneg_of_anti_tendsto {f f' : ℝ → ℝ} {a : ℝ} (hd : ∀ x, a ≤ x → HasDerivAt f (f' x) x) (hn : ∀ x, a < x → f' x ≤ 0) (ht : Tendsto f atTop (nhds 0)) :
    ∀ x, a ≤ x → 0 ≤ f x := by
  have hanti : AntitoneOn f (Ici a) := by
    refine antitoneOn_of_deriv_nonpos (convex_Ici a) (fun x hx => (hd x hx).continuousAt.continuousWithinAt)
      (fun x hx => (hd x (interior_subset hx)).differentiableAt.differentiableWithinAt) fun x hx => ?_
    rw [interior_Ici] at hx
    rw [(hd x hx.le).deriv]
    exact hn x hx
  intro x hx
  refine le_of_tendsto ht ?_
  filter_upwards [eventually_ge_atTop x] with y hy
  exact hanti hx (hx.trans hy) hy

theorem exp_sq_tendsto : Tendsto (fun x : ℝ => exp (-x ^ 2)) atTop (nhds 0) := by
  refine squeeze_zero' (Eventually.of_forall fun x => (exp_pos _).le) ?_ tendsto_exp_neg_atTop_nhds_zero
  filter_upwards [eventually_ge_atTop (1 : ℝ)] with x hx
  exact exp_le_exp.2 (by nlinarith)

theorem exp_sq_hasDerivAt (x : ℝ) : HasDerivAt (fun x : ℝ => exp (-x ^ 2)) (-(2 * x * exp (-x ^ 2))) x := by
  have h : HasDerivAt (fun x : ℝ => -x ^ 2) (-(2 * x)) x := by
    have := (hasDerivAt_pow 2 x).neg
    refine this.congr_deriv ?_
    norm_num
  refine h.exp.congr_deriv ?_
  ring

theorem erfc_le_exp {x : ℝ} (h : 0 ≤ x) : erfc x ≤ exp (-x ^ 2) := by
  have hs := sqrt_pos.2 pi_pos
  have hd : ∀ x, HasDerivAt (fun x => exp (-x ^ 2) - erfc x) (2 * exp (-x ^ 2) * (1 / √π - x)) x := fun x =>
    ((exp_sq_hasDerivAt x).sub (erfc_hasDerivAt x)).congr_deriv (by ring)
  have ht : Tendsto (fun x => exp (-x ^ 2) - erfc x) atTop (nhds 0) := by
    have := exp_sq_tendsto.sub erfc_tendsto
    rwa [sub_self] at this
  rcases le_total (1 / √π) x with hx | hx
  · have := nonneg_of_anti_tendsto (a := 1 / √π) (fun x _ => hd x) (fun x hx => mul_nonpos_of_nonneg_of_nonpos (by positivity) (by linarith)) ht x hx
    linarith
  · have hm : MonotoneOn (fun x => exp (-x ^ 2) - erfc x) (Icc 0 (1 / √π)) := by
      refine monotoneOn_of_deriv_nonneg (convex_Icc _ _) (fun x _ => (hd x).continuousAt.continuousWithinAt)
        (fun x _ => (hd x).differentiableAt.differentiableWithinAt) fun x hx => ?_
      rw [interior_Icc] at hx
      rw [(hd x).deriv]
      exact mul_nonneg (by positivity) (by linarith [hx.2])
    have := hm ⟨le_rfl, by positivity⟩ ⟨h, hx⟩ h
    simp only [erfc_zero] at this
    norm_num at this
    linarith

/-- The integral of `erfc` from `x` to infinity, in closed form. -/
noncomputable def ierfcR (x : ℝ) : ℝ := exp (-x ^ 2) / √π - x * erfc x

theorem ierfcR_hasDerivAt (x : ℝ) : HasDerivAt ierfcR (-erfc x) x := by
  refine (((exp_sq_hasDerivAt x).div_const √π).sub ((hasDerivAt_id x).mul (erfc_hasDerivAt x))).congr_deriv ?_
  simp only [id]
  ring

theorem ierfcR_tendsto : Tendsto ierfcR atTop (nhds 0) := by
  have h1 : Tendsto (fun x : ℝ => x * erfc x) atTop (nhds 0) := by
    have h2 : Tendsto (fun x : ℝ => x ^ 1 * exp (-x)) atTop (nhds 0) := tendsto_pow_mul_exp_neg_atTop_nhds_zero 1
    refine squeeze_zero' ?_ ?_ h2
    · filter_upwards [eventually_ge_atTop (0 : ℝ)] with x hx
      exact mul_nonneg hx (erfc_pos x).le
    · filter_upwards [eventually_ge_atTop (1 : ℝ)] with x hx
      rw [pow_one]
      exact mul_le_mul_of_nonneg_left ((erfc_le_exp (by linarith)).trans (exp_le_exp.2 (by nlinarith))) (by linarith)
  have := (exp_sq_tendsto.div_const √π).sub h1
  rw [zero_div, sub_zero] at this
  exact this

theorem ierfcR_strictAnti : StrictAnti ierfcR := strictAnti_of_hasDerivAt_neg ierfcR_hasDerivAt fun x => by
  have := erfc_pos x
  linarith

theorem ierfcR_pos (x : ℝ) : 0 < ierfcR x :=
  (ierfcR_strictAnti.antitone.le_of_tendsto ierfcR_tendsto (x + 1)).trans_lt (ierfcR_strictAnti (lt_add_one x))

theorem ierfcR_le_exp {x : ℝ} (h : 0 ≤ x) : ierfcR x ≤ exp (-x ^ 2) / √π := by
  have := mul_nonneg h (erfc_pos x).le
  unfold ierfcR; linarith

/-- Sharper tail bound. -/
theorem ierfcR_le {x : ℝ} (h : 0 < x) : ierfcR x ≤ exp (-x ^ 2) / √π / (2 * x ^ 2) := by
  have hs := sqrt_pos.2 pi_pos
  have hd : ∀ y, x ≤ y → HasDerivAt (fun y => exp (-y ^ 2) / √π / (2 * y ^ 2) - ierfcR y) (erfc y - exp (-y ^ 2) / √π * (1 / y + 1 / y ^ 3)) y := by
    intro y hy
    have hy0 : 0 < y := h.trans_le hy
    have h2 : HasDerivAt (fun y : ℝ => 2 * y ^ 2) (2 * (2 * y)) y := by
      have := (hasDerivAt_pow 2 y).const_mul 2
      refine this.congr_deriv ?_
      norm_num
    refine ((((exp_sq_hasDerivAt y).div_const √π).div h2 (by positivity)).sub (ierfcR_hasDerivAt y)).congr_deriv ?_
    field_simp
    ring
  have ht : Tendsto (fun y => exp (-y ^ 2) / √π / (2 * y ^ 2) - ierfcR y) atTop (nhds 0) := by
    have h1 : Tendsto (fun y : ℝ => exp (-y ^ 2) / √π / (2 * y ^ 2)) atTop (nhds 0) := by
      have h2 := exp_sq_tendsto.div_const √π
      rw [zero_div] at h2
      refine squeeze_zero' (Eventually.of_forall fun x => by positivity) ?_ h2
      filter_upwards [eventually_ge_atTop (1 : ℝ)] with y hy
      exact div_le_self (by positivity) (by nlinarith)
    have := h1.sub ierfcR_tendsto
    rwa [sub_zero] at this
  have := nonneg_of_anti_tendsto hd (fun y hy => ?_) ht x le_rfl
  · linarith
  · have hy0 : 0 < y := h.trans hy
    have h1 : y * erfc y ≤ exp (-y ^ 2) / √π := by have := (ierfcR_pos y).le; unfold ierfcR at this; linarith
    have h2 : erfc y ≤ exp (-y ^ 2) / √π * (1 / y) := by
      rw [mul_one_div, le_div_iff₀ hy0]; linarith
    have h3 : 0 ≤ exp (-y ^ 2) / √π * (1 / y ^ 3) := by positivity
    rw [mul_add]
    linarith

end Verif
