import Mathlib.MeasureTheory.Integral.Bochner.Set
import Mathlib.Analysis.SpecialFunctions.Gamma.Basic
import Mathlib.MeasureTheory.Measure.Lebesgue.Basic

/-!
# What the samplers of numpy promise

Laws of random variables, as in the documentation of `numpy.random.Generator`; nothing here refers to the model.
-/

namespace Verif.Spec

open MeasureTheory Set Real

variable {Ω : Type*} [MeasurableSpace Ω]

/-- `X` has the law of `Generator.geometric(p)`: `P(X = k) = (1 - p)^(k - 1) p` for `k = 1, 2, …`; and `X` is never 0. -/
def GeometricLaw (P : Measure Ω) (X : Ω → ℕ) (p : ℝ) : Prop :=
  P.real {ω | X ω = 0} = 0 ∧ ∀ k, P.real {ω | X ω = k + 1} = (1 - p) ^ k * p

/-- `X` has the law of `Generator.poisson(lam)`: `P(X = k) = lam^k e^(-lam) / k!`. -/
def PoissonLaw (P : Measure Ω) (X : Ω → ℕ) (lam : ℝ) : Prop :=
  ∀ k, P.real {ω | X ω = k} = lam ^ k * exp (-lam) / k.factorial

/-- `X` is a positive random variable with density `f`. -/
def HasDensity (P : Measure Ω) (X : Ω → ℝ) (f : ℝ → ℝ) : Prop :=
  ∀ s, MeasurableSet s → P.real {ω | X ω ∈ s} = ∫ x in s ∩ Ioi 0, f x

/-- `X` has the law of `Generator.lognormal(mean, sigma)`. -/
def LogNormalLaw (P : Measure Ω) (X : Ω → ℝ) (mean sigma : ℝ) : Prop :=
  HasDensity P X fun x => 1 / (sigma * x * √(2 * π)) * exp (-((log x - mean) ^ 2 / (2 * sigma ^ 2)))

/-- `X` has the law of `Generator.gamma(shape, scale)`. -/
def GammaLaw (P : Measure Ω) (X : Ω → ℝ) (shape scale : ℝ) : Prop :=
  HasDensity P X fun x => x ^ (shape - 1) * (exp (-x / scale) / (scale ^ shape * Gamma shape))

end Verif.Spec
