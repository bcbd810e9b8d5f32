import Verif.Props.DiffusionUptake
import Mathlib.MeasureTheory.Integral.IntegralEqImproper

/-!
# C115: `ierfc` and `i2erfc` are the repeated integrals of the complementary error function
-/

namespace Verif.Diffusion

open Real MeasureTheory

/-- **C115.** `ierfc(x) = ∫_x^∞ erfc`, up to 30 exactly and beyond with an error below `exp(-900)`. -/
theorem C115_ierfc (x : ℝ) : IntegrableOn erfc (Set.Ioi x) ∧ (x ≤ 30 → ierfc x = ∫ t in Set.Ioi x, erfc t) ∧
    ierfc x ≤ ∫ t in Set.Ioi x, erfc t ∧ (∫ t in Set.Ioi x, erfc t) - ierfc x ≤ exp (-900) := by
  have hd : ∀ t ∈ Set.Ioi x, HasDerivAt (fun t => -ierfcR t) (erfc t) t := fun t _ => (ierfcR_hasDerivAt t).neg.congr_deriv (neg_neg _)
  have hc : ContinuousWithinAt (fun t => -ierfcR t) (Set.Ici x) x := (ierfcR_hasDerivAt x).neg.continuousAt.continuousWithinAt
  have ht : Filter.Tendsto (fun t => -ierfcR t) Filter.atTop (nhds 0) := by simpa using ierfcR_tendsto.neg
  have hpos : ∀ t ∈ Set.Ioi x, 0 ≤ erfc t := fun t _ => (erfc_pos t).le
  have hI : ∫ t in Set.Ioi x, erfc t = ierfcR x := by
    rw [integral_Ioi_of_hasDerivAt_of_nonneg hc hd hpos ht]; ring
  have hcut := ierfc_cut x
  refine ⟨integrableOn_Ioi_deriv_of_nonneg hc hd hpos ht, fun h => ?_, by rw [hI]; linarith, by rw [hI]; linarith⟩
  rw [hI]
  unfold ierfc ierfcR
  rw [if_neg (not_lt.2 h)]

/-- **C115.** `i2erfc(x)` is the integral of that integral, up to 30 exactly and beyond with an error below `exp(-900)`. -/
theorem C115_i2erfc (x : ℝ) : (x ≤ 30 → i2erfc x = ∫ t in Set.Ioi x, ∫ s in Set.Ioi t, erfc s) ∧
    i2erfc x ≤ (∫ t in Set.Ioi x, ∫ s in Set.Ioi t, erfc s) ∧ (∫ t in Set.Ioi x, ∫ s in Set.Ioi t, erfc s) - i2erfc x ≤ exp (-900) := by
  have hin : ∀ t, ∫ s in Set.Ioi t, erfc s = ierfcR t := by
    intro t
    have hd : ∀ s ∈ Set.Ioi t, HasDerivAt (fun t => -ierfcR t) (erfc s) s := fun s _ => (ierfcR_hasDerivAt s).neg.congr_deriv (neg_neg _)
    rw [integral_Ioi_of_hasDerivAt_of_nonneg (ierfcR_hasDerivAt t).neg.continuousAt.continuousWithinAt hd (fun s _ => (erfc_pos s).le)
      (show Filter.Tendsto (fun t => -ierfcR t) Filter.atTop (nhds 0) by simpa using ierfcR_tendsto.neg)]
    simp
  have hI : ∫ t in Set.Ioi x, ∫ s in Set.Ioi t, erfc s = i2erfcR x := by
    simp only [hin]
    have hd : ∀ s ∈ Set.Ioi x, HasDerivAt (fun t => -i2erfcR t) (ierfcR s) s := fun s _ => (i2erfcR_hasDerivAt s).neg.congr_deriv (neg_neg _)
    rw [integral_Ioi_of_hasDerivAt_of_nonneg (i2erfcR_hasDerivAt x).neg.continuousAt.continuousWithinAt hd (fun s _ => (ierfcR_pos s).le)
      (show Filter.Tendsto (fun t => -i2erfcR t) Filter.atTop (nhds 0) by simpa using i2erfcR_tendsto.neg)]
    simp
  have h30 : x ≤ 30 → i2erfc x = i2erfcR x := by
    intro h
    unfold i2erfc i2erfcR ierfc ierfcR
    rw [if_neg (not_lt.2 h), if_neg (not_lt.2 h)]
  rw [hI]
  refine ⟨h30, ?_⟩
  rcases le_or_gt x 30 with h | h
  · rw [h30 h, sub_self]; exact ⟨le_rfl, (exp_pos _).le⟩
  · have h0 : i2erfc x = 0 := by unfold i2erfc; rw [if_pos h]
    rw [h0, sub_zero]
    refine ⟨(i2erfcR_pos x).le, (i2erfcR_le (by linarith)).trans ?_⟩
    have : exp (-x ^ 2) ≤ exp (-900) := exp_le_exp.2 (by nlinarith)
    have := exp_pos (-x ^ 2)
    linarith

/-- Values at 0. -/
example : (0 : ℝ) ≤ 30 ∧ ierfc 0 = 1 / √π ∧ i2erfc 0 = 1 / 4 := by
  refine ⟨by norm_num, ?_, ?_⟩
  · norm_num [ierfc]
  · norm_num [i2erfc, erfc_zero]

end Verif.Diffusion
