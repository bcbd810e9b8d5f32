import Mathlib.Analysis.Calculus.Deriv.Basic
import Mathlib.Analysis.SpecialFunctions.Pow.Real

/-! # Specification vocabulary for the composition drift (independent of the model) -/

namespace Verif.CopoDrift.Spec

open Set

/-- `y` is a continuously differentiable solution on `[0, T]` of `y' = rhs t y`, `y 0 = y0`. `rhs` is `none` where it is not a finite number. -/
structure IsSolution {n : ℕ} (rhs : ℝ → (Fin n → ℝ) → Fin n → Option ℝ) (T : ℝ) (y0 : Fin n → ℝ) (y : ℝ → Fin n → ℝ) (d : ℝ → Fin n → ℝ) : Prop where
  init : y 0 = y0
  cont : ∀ i, ContinuousOn (fun t => y t i) (Icc 0 T)
  contd : ∀ i, ContinuousOn (fun t => d t i) (Icc 0 T)
  rhs : ∀ t ∈ Icc 0 T, ∀ i, rhs t (y t) i = some (d t i)
  deriv : ∀ t ∈ Ico 0 T, ∀ i, HasDerivWithinAt (fun s => y s i) (d t i) (Ici t) t

/-- The Mayo-Lewis equation. -/
noncomputable def mayoLewis (r1 r2 f : ℝ) : ℝ := (r1 * f ^ 2 + f * (1 - f)) / (r1 * f ^ 2 + 2 * f * (1 - f) + r2 * (1 - f) ^ 2)

/-- The integrated drift equation of Meyer and Lowry: the fraction `u` of monomer left when the composition has changed from `f0` to `f`. -/
def MeyerLowry (r1 r2 f0 f u : ℝ) : Prop :=
  let δ := (1 - r2) / (2 - r1 - r2)
  u = (f / f0) ^ (r2 / (1 - r2)) * ((1 - f) / (1 - f0)) ^ (r1 / (1 - r1)) * ((f0 - δ) / (f - δ)) ^ ((1 - r1 * r2) / ((1 - r1) * (1 - r2)))

end Verif.CopoDrift.Spec
