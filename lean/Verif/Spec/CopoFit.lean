import Mathlib.Data.Real.Basic
import Mathlib.Algebra.BigOperators.Group.List.Basic

/-! # Specification vocabulary for the copolymerisation fit (independent of the model) -/

namespace Verif.CopoFit.Spec

/-- One observation: value, estimate, scale. -/
structure Obs where
  y : ℝ
  est : ℝ
  s : ℝ

/-- Weighted sum of squared scaled residuals of a list of `(weight, observations)`. -/
noncomputable def weightedSS (l : List (ℝ × List Obs)) : ℝ := (l.map fun d => d.1 * (d.2.map fun o => ((o.y - o.est) / o.s) ^ 2).sum).sum

/-- The box in which reactivity ratios are searched. -/
def Box (r : ℝ × ℝ) : Prop := (1 / 1000 ≤ r.1 ∧ r.1 ≤ 100) ∧ 1 / 1000 ≤ r.2 ∧ r.2 ≤ 100

end Verif.CopoFit.Spec
