import Verif.Model.Basic
import Verif.Model.Special
import Mathlib.Combinatorics.Enumerative.Stirling
import Mathlib.Algebra.BigOperators.Intervals
import Mathlib.Analysis.SpecialFunctions.Exp

/-!
# Model of `polykin/distributions/analyticaldistributions.py` and of the averages in `polykin/distributions/base.py`

Chain lengths of the discrete distributions are naturals `k ≥ 1`; sizes of the continuous ones are positive reals. Arrays are
handled element by element.
-/

namespace Verif.Dist

open Real

/-! ### Flory -/

/-- `_a` (`/repo/src/polykin/distributions/analyticaldistributions.py` line 83). -/
noncomputable def floryA (DPn : ℝ) : ℝ := 1 - 1 / DPn

/-- `Flory._pdf0_length` (lines 85-87). -/
def floryPdf (a : ℝ) (k : ℕ) : ℝ := (1 - a) * a ^ (k - 1)

/-- `Flory._moment_length` (lines 90-105). `polylog n a` stands for `mpmath.polylog(-n, a)`; for `a = 0` the last branch divides
by zero and raises. -/
noncomputable def floryMoment (polylog : ℕ → ℝ → ℝ) (a : ℝ) (order : ℕ) : Except Err ℝ :=
  let p := 1 - a
  if order = 0 then .ok 1
  else if order = 1 then .ok (1 / p)
  else if order = 2 then .ok (2 / p ^ 2 - 1 / p)
  else if order = 3 then .ok (6 / p ^ 3 - 6 / p ^ 2 + 1 / p)
  else if order = 4 then .ok (24 / p ^ 4 - 36 / p ^ 3 + 14 / p ^ 2 - 1 / p)
  else if a = 0 then .error .ZeroDivisionError
  else .ok (p / a * polylog order a)

/-- `Flory._cdf_length` (lines 107-115). -/
noncomputable def floryCdf (a : ℝ) (k : ℕ) (order : ℕ) : Except Err ℝ :=
  if order = 0 then .ok ((1 - a ^ k) / 1)
  else if order = 1 then .ok ((a ^ k * (-a * k + k + 1) - 1) / (a - 1) / (1 / (1 - a)))
  else .error .ValueError

/-! ### Poisson -/

/-- `_a` (line 180). -/
def poissonA (DPn : ℝ) : ℝ := DPn - 1

/-- `poisson(k, a, k0)` (lines 429-434); `none` is NaN. For `a = 0`, `log(a) = -inf`, so the exponent is `0 * -inf = nan` if
`k + shift = 0` and `-inf` if `k + shift > 0`. -/
noncomputable def poisson (k : ℕ) (a : ℝ) (k0 : Bool) : Option ℝ :=
  let shift : ℤ := if k0 then 0 else -1
  if a = 0 then if (k : ℤ) + shift = 0 then none else some 0
  else some (exp (((k : ℝ) + shift) * log a - a - gammaln ((k : ℝ) + 1 + shift)))

/-- `Poisson._pdf0_length` (lines 182-184). -/
noncomputable def poissonPdf (a : ℝ) (k : ℕ) : Option ℝ := poisson k a false

/-- `Poisson._moment_length` (lines 187-202). -/
noncomputable def poissonMoment (a : ℝ) (order : ℕ) : ℝ :=
  if order = 0 then 1
  else if order = 1 then a + 1
  else if order = 2 then a ^ 2 + 3 * a + 1
  else if order = 3 then a ^ 3 + 6 * a ^ 2 + 7 * a + 1
  else ∑ j ∈ Finset.Ico 1 (order + 2), (Nat.stirlingSecond (order + 1) j : ℝ) * a ^ (j - 1)

/-- `Poisson._cdf_length` (lines 204-212), for `a > 0`. -/
noncomputable def poissonCdf (a : ℝ) (k : ℕ) (order : ℕ) : Except Err ℝ :=
  if order = 0 then .ok (gammaincc k a / 1)
  else if order = 1 then .ok (((a + 1) * gammaincc k a - exp (k * log a - a - gammaln k)) / (a + 1))
  else .error .ValueError

/-! ### LogNormal -/

/-- `_sigma` (line 286). -/
noncomputable def lnSigma (PDI : ℝ) : ℝ := √(log PDI)

/-- `_mu` (line 287). -/
noncomputable def lnMu (DPn PDI : ℝ) : ℝ := log (DPn / √PDI)

/-- `LogNormal._pdf0_length` (lines 291-294). -/
noncomputable def lnPdf (mu sigma x : ℝ) : ℝ := exp (-((log x - mu) ^ 2) / (2 * sigma ^ 2)) / (x * sigma * √(2 * π))

/-- `LogNormal._moment_length` (lines 297-300). -/
noncomputable def lnMoment (mu sigma : ℝ) (order : ℕ) : ℝ := exp (order * mu + 1 / 2 * (order : ℝ) ^ 2 * sigma ^ 2)

/-- `LogNormal._cdf_length` (lines 302-311). -/
noncomputable def lnCdf (mu sigma x : ℝ) (order : ℕ) : Except Err ℝ :=
  if order = 0 then .ok ((1 + erf ((log x - mu) / (sigma * √2))) / 2)
  else if order = 1 then .ok (erfc ((mu + sigma ^ 2 - log x) / (sigma * √2)) / 2)
  else .error .ValueError

/-! ### Schulz-Zimm -/

/-- `_k` (line 390). -/
noncomputable def szK (PDI : ℝ) : ℝ := 1 / (PDI - 1)

/-- `_theta` (line 391). -/
def szTheta (DPn PDI : ℝ) : ℝ := DPn * (PDI - 1)

/-- `SchulzZimm._pdf0_length` (lines 395-398). -/
noncomputable def szPdf (k theta x : ℝ) : ℝ := x ^ (k - 1) * exp (-x / theta) / (theta ^ k * Gamma k)

/-- `SchulzZimm._moment_length` (lines 401-404). -/
noncomputable def szMoment (k theta : ℝ) (order : ℕ) : ℝ := poch k order * theta ^ order

/-- `SchulzZimm._cdf_length` (lines 406-415). -/
noncomputable def szCdf (k theta x : ℝ) (order : ℕ) : Except Err ℝ :=
  if order = 0 then .ok (gammainc k (x / theta))
  else if order = 1 then .ok (1 - gammaincc (1 + k) (x / theta))
  else .error .ValueError

/-! ### `IndividualDistribution` and `Distribution` (`/repo/src/polykin/distributions/base.py`) -/

/-- `IndividualDistribution._moment_mass(order, shift)` (lines 422-423), from the moments `m` in chain length. -/
noncomputable def momentMass (m : ℕ → ℝ) (M0 : ℝ) (order : ℕ) (shift : ℕ) : ℝ := m order * M0 ^ ((order : ℤ) - shift)

/-- `DPn` (line 61). -/
noncomputable def avgDPn (mm : ℕ → ℕ → ℝ) : ℝ := mm 1 1 / mm 0 0
/-- `DPw` (line 66). -/
noncomputable def avgDPw (mm : ℕ → ℕ → ℝ) : ℝ := mm 2 1 / mm 1 0
/-- `DPz` (line 71). -/
noncomputable def avgDPz (mm : ℕ → ℕ → ℝ) : ℝ := mm 3 1 / mm 2 0
/-- `Mn` (line 76). -/
noncomputable def avgMn (mm : ℕ → ℕ → ℝ) : ℝ := mm 1 0 / mm 0 0
/-- `Mw` (line 81). -/
noncomputable def avgMw (mm : ℕ → ℕ → ℝ) : ℝ := mm 2 0 / mm 1 0
/-- `Mz` (line 86). -/
noncomputable def avgMz (mm : ℕ → ℕ → ℝ) : ℝ := mm 3 0 / mm 2 0
/-- `PDI` (line 91). -/
noncomputable def avgPDI (mm : ℕ → ℕ → ℝ) : ℝ := avgMw mm / avgMn mm
/-- `M0` (line 96). -/
noncomputable def avgM0 (mm : ℕ → ℕ → ℝ) : ℝ := avgMn mm / avgDPn mm

/-- `IndividualDistribution._pdf(size, order, sizeasmass)` (lines 425-434); `pdf0` and `m` are the number pdf and the moments in
chain length. -/
noncomputable def pdf (pdf0 : ℝ → ℝ) (m : ℕ → ℝ) (M0 size : ℝ) (order : ℕ) (sizeasmass : Bool) : ℝ :=
  let factor := if sizeasmass then M0 else 1
  let size := if sizeasmass then size / M0 else size
  pdf0 size * size ^ order / (m order * factor)

/-- `IndividualDistribution._cdf(size, order, sizeasmass)` (lines 436-439). -/
noncomputable def cdf (cdf0 : ℝ → ℕ → Except Err ℝ) (M0 size : ℝ) (order : ℕ) (sizeasmass : Bool) : Except Err ℝ :=
  cdf0 (if sizeasmass then size / M0 else size) order

end Verif.Dist
