import Mathlib.Algebra.Field.Basic

/-! # Specification vocabulary for fixed-step integration (independent of the model) -/

namespace Verif.Ode

variable {α : Type*} [Field α]

/-- Values of a one-step method on the uniform grid `t0, t0 + h, t0 + 2h, …`. -/
def gridSol (step : α → α → α → α) (t0 y0 h : α) : ℕ → α
  | 0 => y0
  | i + 1 => step (t0 + i * h) (gridSol step t0 y0 h i) h

end Verif.Ode
