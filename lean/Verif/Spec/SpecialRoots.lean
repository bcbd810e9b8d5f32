import Mathlib.Analysis.SpecialFunctions.Trigonometric.Basic

/-! # Slopes of x tan x and x cot x -/

namespace Verif.SpecialRoots

open Real

/-- The derivative of `x tan x`. -/
noncomputable def tanD (x : ℝ) : ℝ := tan x + x / cos x ^ 2

/-- Minus the derivative of `x cot x`. -/
noncomputable def cotD (x : ℝ) : ℝ := x / sin x ^ 2 - cos x / sin x

end Verif.SpecialRoots
