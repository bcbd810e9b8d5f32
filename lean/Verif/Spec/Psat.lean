import Mathlib.MeasureTheory.Integral.IntervalIntegral.Basic

/-! # Specification: coexistence of two phases on an isotherm (Maxwell's equal-area rule) -/

namespace Verif.Psat.Spec

/-- `vL < vV` are the smallest and the largest volume above the co-volume `b` at which the isotherm `p` takes the value `P`. -/
structure Extreme (p : ℝ → ℝ) (b P vL vV : ℝ) : Prop where
  gt : b < vL
  lt : vL < vV
  atL : p vL = P
  atV : p vV = P
  between : ∀ v, b < v → p v = P → vL ≤ v ∧ v ≤ vV

/-- Area between the isotherm and the horizontal line at `P`. -/
noncomputable def area (p : ℝ → ℝ) (P vL vV : ℝ) : ℝ := ∫ v in vL..vV, (p v - P)

/-- Liquid of volume `vL` and vapour of volume `vV` coexist at pressure `P`: same pressure, equal areas. -/
structure Coexist (p : ℝ → ℝ) (b P vL vV : ℝ) : Prop where
  gt : b < vL
  lt : vL < vV
  atL : p vL = P
  atV : p vV = P
  equal : area p P vL vV = 0

end Verif.Psat.Spec
