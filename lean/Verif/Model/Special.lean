import Mathlib.MeasureTheory.Integral.Bochner.Set
import Mathlib.MeasureTheory.Measure.Haar.OfBasis
import Mathlib.Analysis.SpecialFunctions.Gamma.Basic
import Mathlib.Analysis.SpecialFunctions.Pow.Real
import Mathlib.Analysis.Real.Sqrt
import Mathlib.MeasureTheory.Integral.IntervalIntegral.Basic

/-!
# Special functions of `scipy.special`

Documented meaning of the library functions the code calls. They are defined by the integrals of the scipy manual, over exact
reals; the library's own numerical error is not modelled.
-/

namespace Verif

open MeasureTheory Set

/-- `scipy.special.erf(x) = 2/√π ∫₀ˣ exp(-t²) dt`. -/
noncomputable def erf (x : ℝ) : ℝ := 2 / √Real.pi * ∫ t in (0 : ℝ)..x, Real.exp (-t ^ 2)

/-- `scipy.special.erfc(x) = 1 - erf(x)`. -/
noncomputable def erfc (x : ℝ) : ℝ := 1 - erf x

/-- `scipy.special.gammaincc(a, x) = 1/Γ(a) ∫ₓ^∞ t^(a-1) exp(-t) dt`. -/
noncomputable def gammaincc (a x : ℝ) : ℝ := 1 / Real.Gamma a * ∫ t in Ioi x, t ^ (a - 1) * Real.exp (-t)

/-- `scipy.special.gammainc(a, x) = 1/Γ(a) ∫₀ˣ t^(a-1) exp(-t) dt`. -/
noncomputable def gammainc (a x : ℝ) : ℝ := 1 / Real.Gamma a * ∫ t in Ioc 0 x, t ^ (a - 1) * Real.exp (-t)

/-- `scipy.special.gammaln(x) = log |Γ(x)|`. -/
noncomputable def gammaln (x : ℝ) : ℝ := Real.log |Real.Gamma x|

/-- `scipy.special.poch(z, m) = Γ(z+m)/Γ(z)`. -/
noncomputable def poch (z m : ℝ) : ℝ := Real.Gamma (z + m) / Real.Gamma z

end Verif
