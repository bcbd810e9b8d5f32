import Verif.Props.Diffusion

/-! # Helper lemmas: the concentration profiles solve the diffusion equation -/

namespace Verif.Diffusion

open Real Finset Filter Topology

/-- `erfc(m/(2√Fo))` vanishes as `Fo → 0+`. -/
theorem erfc_initial {m : ℝ} (hm : 0 < m) : Tendsto (fun Fo : ℝ => erfc (m / (2 * √Fo))) (𝓝[>] 0) (𝓝 0) := by
  refine erfc_tendsto.comp ?_
  have h1 : Tendsto (fun Fo : ℝ => 2 * √Fo) (𝓝[>] 0) (𝓝[>] 0) := by
    rw [tendsto_nhdsWithin_iff]
    refine ⟨?_, ?_⟩
    · have : Tendsto (fun Fo : ℝ => 2 * √Fo) (𝓝 0) (𝓝 (2 * √0)) := (continuous_sqrt.const_mul 2).tendsto 0
      simp only [sqrt_zero, mul_zero] at this
      exact this.mono_left nhdsWithin_le_nhds
    · filter_upwards [self_mem_nhdsWithin] with x hx
      have := sqrt_pos.2 (show (0 : ℝ) < x from hx)
      exact mul_pos two_pos this
  exact (tendsto_inv_nhdsGT_zero.comp h1).const_mul_atTop hm

end Verif.Diffusion
