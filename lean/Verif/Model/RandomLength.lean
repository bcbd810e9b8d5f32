import Verif.Model.Dist
import Mathlib.Algebra.Order.Floor.Ring

/-!
# Random chain lengths (`/repo/src/polykin/distributions/base.py` lines 604-636,
`/repo/src/polykin/distributions/analyticaldistributions.py` lines 117-118, 214-215, 313-316, 417-420)

The generator of numpy is an oracle: each sampler is a function of its parameters and of a point `ω` of a sample space, i.e. a
random variable. One draw (`shape=None`) is modelled; the generator object, which is created at the first call and reused, is `ω`.
-/

namespace Verif.Dist

/-- The samplers of `numpy.random.Generator` which the distributions call. -/
structure Rng (Ω : Type*) where
  /-- `rng.geometric(p)` -/
  geometric : ℝ → Ω → ℕ
  /-- `rng.poisson(lam)` -/
  poisson : ℝ → Ω → ℕ
  /-- `rng.lognormal(mean, sigma)` -/
  lognormal : ℝ → ℝ → Ω → ℝ
  /-- `rng.gamma(shape, scale)` -/
  gamma : ℝ → ℝ → Ω → ℝ

/-- `np.rint`: round to the nearest integer, ties to the even one (called in lines 316 and 420). The code returns the integer as a
float. -/
noncomputable def rint (x : ℝ) : ℤ :=
  if x - ⌊x⌋ < 1 / 2 then ⌊x⌋
  else if 1 / 2 < x - ⌊x⌋ then ⌊x⌋ + 1
  else if Even ⌊x⌋ then ⌊x⌋
  else ⌊x⌋ + 1

variable {Ω : Type*}

/-- `Flory._random_length` (lines 117-118) of a distribution with the given `DPn`. -/
noncomputable def floryRandom (g : Rng Ω) (DPn : ℝ) (ω : Ω) : ℤ := g.geometric (1 - floryA DPn) ω

/-- `Poisson._random_length` (lines 214-215). -/
noncomputable def poissonRandom (g : Rng Ω) (DPn : ℝ) (ω : Ω) : ℤ := g.poisson (poissonA DPn) ω + 1

/-- `LogNormal._random_length` (lines 313-316). -/
noncomputable def lnRandom (g : Rng Ω) (DPn PDI : ℝ) (ω : Ω) : ℤ := rint (g.lognormal (lnMu DPn PDI) (lnSigma PDI) ω)

/-- `SchulzZimm._random_length` (lines 417-420). -/
noncomputable def szRandom (g : Rng Ω) (DPn PDI : ℝ) (ω : Ω) : ℤ := rint (g.gamma (szK PDI) (szTheta DPn PDI) ω)

end Verif.Dist
